import Verif.Proofs.Core.Edit

/-! # On-the-fly strengthening and subsumption -/

namespace Verif.Core

open Verif.Spec

/-- State and conflict after strengthening the reason `ref` of `u`. -/
structure Otfs (orig : Base) (G : Assignment → Prop) (s : Solver) (u ref kk : Nat)
    (s' : Solver) (res : Conflict) : Prop where
  ok : OkAt orig G s.level (s.pos u) s'
  values : s'.values = s.values
  assigned : s'.assigned = s.assigned
  trail : s'.trail = s.trail
  frames : s'.frames = s.frames
  level : s'.level = s.level
  kept : Kept s s'
  watch : WatchingX s' kk (exL s s.level res) (exB s s.level res)
  conf : ConflictOk s' res
  sub : ∀ m ∈ s'.conflictLits res, m ∈ s.antecedents u
  other : ∀ r, r ≠ ref → s'.clause r = s.clause r
  res : ∀ r, res = .large r → r = ref
  size : s'.totalSize < s.totalSize

theorem shorter_large {s : Solver} {k u n : Nat} {t : Analysis} {confl : List Nat}
    (hi : InvAt s s.level k) (h0 : 0 < s.level) (h : Shorter s k u t n confl) :
    ∃ ref, (s.assigned (u / 2)).reason = .large ref := by
  have hv := hi.trail.tval u h.mem
  cases hre : (s.assigned (u / 2)).reason with
  | unit => exact absurd hre (hi.reason.unit u hv (by rw [h.lev]; omega))
  | decision => exact absurd hre h.implied
  | large r => exact ⟨r, rfl⟩
  | binary o =>
    have h1 := h.size
    have h2 := h.three
    have : s.antecedents u = [o] := by unfold Solver.antecedents; rw [hre]
    rw [this] at h1
    have h3 : ([o].filter fun m => decide (s.lev m ≠ 0)).length ≤ 1 :=
      List.length_filter_le _ _
    omega

/-- Only `u` has `ref` as reason. -/
theorem reason_unique {s : Solver} {L k u ref : Nat} (hi : InvAt s L k) (hv : s.values u = 1)
    (hre : (s.assigned (u / 2)).reason = .large ref) (hu : u ∈ (s.clause ref).lits) {l : Nat}
    (hl : s.values l = 1) (hrl : (s.assigned (l / 2)).reason = .large ref)
    (hk : s.lev l < L ∨ s.pos l < k) : l = u := by
  by_cases e : u = l
  · exact e.symm
  · have := ((hi.reason.large l ref hl hrl hk).2.2.1 u hu e).1
    omega

theorem strengthenBinary_ok {orig : Base} [Deletes orig] {G : Assignment → Prop} {s : Solver}
    {k kk u n ref : Nat} {t : Analysis} {confl : List Nat} (hok : OkAt orig G s.level k s)
    (hw : WatchingX s kk (fun _ w => s.level ≤ s.lev w) (fun w _ => s.level ≤ s.lev w))
    (h0 : 0 < s.level)
    (h : Shorter s k u t n confl) (hre : (s.assigned (u / 2)).reason = .large ref)
    (h3 : t.antecedentSize = 3) :
    Otfs orig G s u ref kk (strengthenBinary s ref u).1 (strengthenBinary s ref u).2 := by
  have hi := hok.inv
  have ht := hi.trail
  have hv := ht.tval u h.mem
  obtain ⟨hlive, hwt, hfalse, _⟩ := hi.reason.large u ref hv hre (.inr h.pos)
  have hum : u ∈ (s.clause ref).lits := by
    rcases hwt with h | h <;> exact List.mem_iff_getElem?.2 ⟨_, h⟩
  have hant : s.antecedents u = (s.clause ref).lits.filter (· ≠ u) := by
    unfold Solver.antecedents; rw [hre]
  have hoth : ((s.clause ref).lits.filter fun l => decide (l ≠ u ∧ s.lev l ≠ 0)) =
      (s.antecedents u).filter fun m => decide (s.lev m ≠ 0) := by
    rw [hant, List.filter_filter]
    apply List.filter_congr
    intro l _
    by_cases h1 : l = u <;> by_cases h2 : s.lev l = 0 <;> simp [h1, h2]
  have hlen : ((s.antecedents u).filter fun m => decide (s.lev m ≠ 0)).length = 2 := by
    have := h.size; omega
  have hnd : ((s.antecedents u).filter fun m => decide (s.lev m ≠ 0)).Nodup := by
    rw [← hoth]; exact List.filter_sublist.nodup (hi.clause.nodup ref hlive)
  have hrup := h.rup
  generalize hN : ((s.antecedents u).filter fun m => decide (s.lev m ≠ 0)) = N at *
  match N, hlen with
  | [f, g], _ =>
  have hfg : f ≠ g := by simpa using hnd
  have hmf : f ∈ s.antecedents u ∧ s.lev f ≠ 0 := by
    have : f ∈ [f, g] := by simp
    rw [← hN] at this; simpa using this
  have hmg : g ∈ s.antecedents u ∧ s.lev g ≠ 0 := by
    have : g ∈ [f, g] := by simp
    rw [← hN] at this; simpa using this
  have hlits : ∀ x, x ∈ s.antecedents u → x ∈ (s.clause ref).lits ∧ x ≠ u := by
    intro x hx; rw [hant] at hx; simpa using hx
  have hne : f ≠ neg g := by
    rintro rfl
    exact hi.clause.taut ref hlive g (hlits _ hmg.1).1 (hlits _ hmf.1).1
  have hok1 := hok.addBinary (a := f) (b := g) (.inl hrup) hfg hne
    (hi.clause.valid ref hlive f (hlits _ hmf.1).1) (hi.clause.valid ref hlive g (hlits _ hmg.1).1)
  have hlive1 : ((s.watchBinary f g).emit (.add [f, g])).Live ref := hlive
  have hok2 := hok1.garbage hlive1 (L' := s.level) (k' := s.pos u) (Nat.le_refl _)
    (Nat.le_of_lt h.pos) (by
      intro l hl hrl hk
      have hl : s.values l = 1 := hl
      have hrl : (s.assigned (l / 2)).reason = .large ref := hrl
      have hk : s.lev l < s.level ∨ s.pos l < s.pos u := hk
      have e := reason_unique hi hv hre hum hl hrl
        (hk.imp id fun hh => Nat.lt_trans hh h.pos)
      subst e
      have := h.lev
      omega) (by
      intro _ σ hσ
      obtain ⟨l, hl, hs⟩ := hσ [f, g] (.inr (.inl ⟨f, g,
        (watchBinary_mem s f g f _).2 (.inr (.inl ⟨rfl, rfl⟩)), rfl⟩))
      simp only [List.mem_cons, List.not_mem_nil, or_false] at hl
      rcases hl with rfl | rfl
      · exact ⟨_, (hlits _ hmf.1).1, hs⟩
      · exact ⟨_, (hlits _ hmg.1).1, hs⟩)
  have hdead : ¬ (((s.watchBinary f g).emit (.add [f, g])).markGarbage ref).Live ref := by
    rw [markGarbage_live hlive1]; simp
  have hdead' : ¬ ((((s.watchBinary f g).emit (.add [f, g])).markGarbage ref).unwatch
    ((s.clause ref).lits.getD 0 0) ref).Live ref := hdead
  have hok3 := (hok2.unwatch hdead ((s.clause ref).lits.getD 0 0)).unwatch hdead'
    ((s.clause ref).lits.getD 1 0)
  have e : strengthenBinary s ref u =
      (((((s.watchBinary f g).emit (.add [f, g])).markGarbage ref).unwatch
        ((s.clause ref).lits.getD 0 0) ref).unwatch ((s.clause ref).lits.getD 1 0) ref,
        .binary f g) := by
    unfold strengthenBinary
    simp only [hoth]
    rfl
  rw [e]
  simp only
  have hbin : ∀ w o, Watch.binary o ∈ (((((s.watchBinary f g).emit (.add [f, g])).markGarbage
      ref).unwatch ((s.clause ref).lits.getD 0 0) ref).unwatch
      ((s.clause ref).lits.getD 1 0) ref).watches w ↔ Watch.binary o ∈ (s.watchBinary f g).watches w := by
    intro w o
    rw [(unwatch_bin _ _ _).iff, (unwatch_bin _ _ _).iff]; rfl
  have f1 : ∀ (a : Solver) l, (a.unwatch l ref).values = a.values ∧
      (a.unwatch l ref).assigned = a.assigned ∧ (a.unwatch l ref).trail = a.trail ∧
      (a.unwatch l ref).frames = a.frames ∧ (a.unwatch l ref).arena = a.arena ∧
      Kept a (a.unwatch l ref) := fun _ _ =>
      ⟨rfl, rfl, rfl, rfl, rfl, rfl, rfl, rfl, rfl, rfl, rfl, fun _ _ h => ⟨rfl, h⟩⟩
  have f2 : ∀ (a : Solver), (a.markGarbage ref).values = a.values ∧
      (a.markGarbage ref).assigned = a.assigned ∧ (a.markGarbage ref).trail = a.trail ∧
      (a.markGarbage ref).frames = a.frames ∧
      Kept a (a.markGarbage ref) := fun _ =>
      ⟨rfl, rfl, rfl, rfl, rfl, rfl, rfl, rfl, rfl, rfl, fun _ _ h => ⟨rfl, h⟩⟩
  have f3 : Kept s ((s.watchBinary f g).emit (.add [f, g])) :=
    ⟨rfl, rfl, rfl, rfl, rfl, rfl, fun _ _ h => ⟨rfl, h⟩⟩
  obtain ⟨s', hs'⟩ : ∃ s', ((((s.watchBinary f g).emit (.add [f, g])).markGarbage
      ref).unwatch ((s.clause ref).lits.getD 0 0) ref).unwatch
      ((s.clause ref).lits.getD 1 0) ref = s' := ⟨_, rfl⟩
  have g1 : s'.values = s.values := by rw [← hs', (f1 _ _).1, (f1 _ _).1, (f2 _).1]; rfl
  have g2 : s'.assigned = s.assigned := by rw [← hs', (f1 _ _).2.1, (f1 _ _).2.1, (f2 _).2.1]; rfl
  have g3 : s'.trail = s.trail := by rw [← hs', (f1 _ _).2.2.1, (f1 _ _).2.2.1, (f2 _).2.2.1]; rfl
  have g4 : s'.frames = s.frames := by
    rw [← hs', (f1 _ _).2.2.2.1, (f1 _ _).2.2.2.1, (f2 _).2.2.2.1]; rfl
  have f4 : ∀ (a : Solver) l, (a.unwatch l ref).level = a.level := fun _ _ => rfl
  have f5 : ∀ (a : Solver), (a.markGarbage ref).level = a.level := fun _ => rfl
  have f6 : ∀ (a b : Solver), a.arena = b.arena → a.totalSize = b.totalSize := by
    intro a b hab; unfold Solver.totalSize; rw [hab]
  have g6 : s'.level = s.level := by rw [← hs', f4, f4, f5]; rfl
  have g7 : s'.totalSize = (s.setClause ref ⟨(s.clause ref).lits, true, (s.clause ref).redundant,
      (s.clause ref).searched⟩).totalSize := by
    refine f6 _ _ ?_
    rw [← hs', (f1 _ _).2.2.2.2.1, (f1 _ _).2.2.2.2.1]
    rfl
  have g5 : Kept s s' := by
    rw [← hs']
    exact ((f3.trans (f2 _).2.2.2.2).trans (f1 _ _).2.2.2.2.2).trans (f1 _ _).2.2.2.2.2
  rw [hs'] at hbin hok3 ⊢
  have hcl : ∀ r, s'.clause r = (((s.watchBinary f g).emit (.add [f, g])).markGarbage ref).clause r :=
    fun r => by rw [← hs']; rfl
  have hother : ∀ r, r ≠ ref → s'.clause r = s.clause r := by
    intro r hr
    rw [hcl, markGarbage_clause hlive1, if_neg hr]; rfl
  refine ⟨hok3, g1, g2, g3, g4, g6, g5, ?_, ?_, ?_, hother,
    (fun r hr => by cases hr), ?_⟩
  · refine hw.edit g1 g2 g3 g4 g5.loose (fun r w hn hr _ => ?_) (fun w o hn ho => ?_)
    · have hr' : r ≠ ref := by
        rintro rfl
        unfold Solver.Live at hr
        rw [hcl] at hr
        exact hdead hr
      rw [hother r hr']
      unfold Solver.Live at hr
      rw [hother r hr'] at hr
      exact ⟨fun hh => hn (.inl hh), hr, rfl⟩
    · rw [hbin, watchBinary_mem] at ho
      refine ⟨fun hh => hn (.inl hh), ho.resolve_right fun hh => hn ?_⟩
      rcases hh with ⟨rfl, hh⟩ | ⟨rfl, hh⟩
      · cases hh; exact .inr (.inl rfl)
      · cases hh; exact .inr (.inr rfl)
  · refine ⟨(hbin f g).2 ((watchBinary_mem s f g f _).2 (.inr (.inl ⟨rfl, rfl⟩))), ?_, ?_⟩
    · rw [g1]
      exact (hfalse f (hlits _ hmf.1).1 (hlits _ hmf.1).2).1
    · rw [g1]
      exact (hfalse g (hlits _ hmg.1).1 (hlits _ hmg.1).2).1
  · intro m hm
    simp only [Solver.conflictLits, List.mem_cons, List.not_mem_nil, or_false] at hm
    rcases hm with rfl | rfl
    · exact hmf.1
    · exact hmg.1
  · have e1 := totalSize_set (s := s) (clause_lt hlive)
      ⟨(s.clause ref).lits, true, (s.clause ref).redundant, (s.clause ref).searched⟩
    have g : (s.clause ref).garbage = false := hlive
    have := hi.clause.size ref hlive
    rw [g] at e1
    simp only [if_true, Bool.false_eq_true, if_false] at e1
    omega

theorem strengthenLarge_ok {orig : Base} [Deletes orig] {G : Assignment → Prop} {s : Solver}
    {k kk u n ref : Nat} {t : Analysis} {confl : List Nat} (hok : OkAt orig G s.level k s)
    (hw : WatchingX s kk (fun _ w => s.level ≤ s.lev w) (fun w _ => s.level ≤ s.lev w))
    (h0 : 0 < s.level)
    (h : Shorter s k u t n confl) (hre : (s.assigned (u / 2)).reason = .large ref)
    (h3 : t.antecedentSize ≠ 3) :
    Otfs orig G s u ref kk (strengthenLarge s ref u).1 (strengthenLarge s ref u).2 := by
  have hi := hok.inv
  have ht := hi.trail
  have hv := ht.tval u h.mem
  obtain ⟨hlive, hwt, hfalse, _⟩ := hi.reason.large u ref hv hre (.inr h.pos)
  have hlt := clause_lt hlive
  have hum : u ∈ (s.clause ref).lits := by
    rcases hwt with h | h <;> exact List.mem_iff_getElem?.2 ⟨_, h⟩
  have hsize := hi.clause.size ref hlive
  have hnd0 := hi.clause.nodup ref hlive
  -- the clause with `u` in second position
  obtain ⟨first, rest, hl1, hperm, hwf⟩ : ∃ first rest,
      (if (s.clause ref).lits.getD 0 0 = u then swapLits (s.clause ref).lits 0 1
        else (s.clause ref).lits) = first :: u :: rest ∧
      (first :: u :: rest).Perm (s.clause ref).lits ∧
      (∀ w, (s.clause ref).Watched w ↔ w = first ∨ w = u) := by
    unfold Clause.Watched at hwt ⊢
    generalize (s.clause ref).lits = l at hsize hwt hnd0 ⊢
    match l, hsize with
    | x :: y :: rest, _ =>
    have hxy : x ≠ y := by rintro rfl; simp at hnd0
    by_cases e : x = u
    · subst e
      refine ⟨y, rest, ?_, List.Perm.swap _ _ _, fun w => ?_⟩
      · exact if_pos rfl
      · simp [eq_comm, or_comm]
    · have hy : y = u := by
        rcases hwt with h | h
        · exact absurd (Option.some.inj h) e
        · exact Option.some.inj h
      subst hy
      refine ⟨x, rest, ?_, List.Perm.refl _, fun w => ?_⟩
      · exact if_neg e
      · simp [eq_comm]
  have hant : ∀ m, m ∈ s.antecedents u ↔ m = first ∨ m ∈ rest := by
    intro m
    have : s.antecedents u = (s.clause ref).lits.filter (· ≠ u) := by
      unfold Solver.antecedents; rw [hre]
    rw [this, List.mem_filter, ← hperm.mem_iff]
    have hnd := hperm.symm.nodup hnd0
    rw [List.nodup_cons, List.nodup_cons] at hnd
    constructor
    · rintro ⟨h1, h2⟩
      simp only [List.mem_cons] at h1
      rcases h1 with h1 | h1 | h1
      · exact .inl h1
      · simp [h1] at h2
      · exact .inr h1
    · rintro (rfl | hm)
      · refine ⟨by simp, ?_⟩
        have : m ≠ u := fun e => hnd.1 (by simp [e])
        simpa using this
      · refine ⟨by simp [hm], ?_⟩
        have : m ≠ u := fun e => hnd.2.1 (e ▸ hm)
        simpa using this
  have hnd := hperm.symm.nodup hnd0
  rw [List.nodup_cons, List.nodup_cons] at hnd
  obtain ⟨hn1, hn2, hn3⟩ := hnd
  have hfu : first ≠ u := fun e => hn1 (by simp [e])
  have hfr : first ∉ rest := fun hm => hn1 (by simp [hm])
  -- remaining literals
  have hNlen : 2 ≤ (rest.filter fun l => decide (s.lev l ≠ 0)).length := by
    have h1 := h.size
    have h2 := h.three
    have hnd2 : ((s.antecedents u).filter fun m => decide (s.lev m ≠ 0)).Nodup := by
      have : s.antecedents u = (s.clause ref).lits.filter (· ≠ u) := by
        unfold Solver.antecedents; rw [hre]
      rw [this]
      exact List.filter_sublist.nodup (List.filter_sublist.nodup hnd0)
    have h5 := nodup_length_le hnd2 (m := first :: rest.filter fun l => decide (s.lev l ≠ 0)) (by
      intro x hx
      rw [List.mem_filter, hant] at hx
      obtain ⟨hx | hx, h2⟩ := hx
      · simp [hx]
      · exact List.mem_cons_of_mem _ (List.mem_filter.2 ⟨hx, h2⟩))
    rw [List.length_cons] at h5
    omega
  have hNsub : ∀ x ∈ rest.filter fun l => decide (s.lev l ≠ 0), x ∈ rest ∧ s.lev x ≠ 0 := by
    intro x hx; simpa using hx
  have hNnd : (rest.filter fun l => decide (s.lev l ≠ 0)).Nodup := List.filter_sublist.nodup hn3
  have hNle := List.length_filter_le (fun l => decide (s.lev l ≠ 0)) rest
  have hNall : ∀ x ∈ rest, s.lev x ≠ 0 → x ∈ rest.filter fun l => decide (s.lev l ≠ 0) := by
    intro x hx h0; simpa using ⟨hx, h0⟩
  generalize hN : (rest.filter fun l => decide (s.lev l ≠ 0)) = N at *
  -- the second watch
  obtain ⟨lits2, second, hj, hperm2, hsec, hfst⟩ : ∃ lits2 second,
      swapLits (first :: N) 1 (findHighest s.lev none ((first :: N).drop 2) 2 1
        (s.lev ((first :: N).getD 1 0))) = lits2 ∧ lits2.Perm (first :: N) ∧
      lits2[1]? = some second ∧ lits2[0]? = some first := by
    have hlen : 1 < (first :: N).length := by rw [List.length_cons]; omega
    have hjl : findHighest s.lev none ((first :: N).drop 2) 2 1 (s.lev ((first :: N).getD 1 0)) <
        (first :: N).length ∧ 0 <
        findHighest s.lev none ((first :: N).drop 2) 2 1 (s.lev ((first :: N).getD 1 0)) := by
      rcases findHighest_spec s.lev none ((first :: N).drop 2) 2 1
        (s.lev ((first :: N).getD 1 0)) (by intro M hM; cases hM) with ⟨e, _⟩ | ⟨i, x, e, hi, _⟩
      · rw [e]; exact ⟨hlen, by omega⟩
      · rw [e]
        rw [List.getElem?_drop] at hi
        exact ⟨(List.getElem?_eq_some_iff.1 hi).1, by omega⟩
    generalize findHighest s.lev none ((first :: N).drop 2) 2 1
      (s.lev ((first :: N).getD 1 0)) = j at hjl
    refine ⟨_, (first :: N)[j]'hjl.1, rfl, swapLits_perm hlen hjl.1, ?_, ?_⟩
    · rw [swapLits_get hlen hjl.1, if_pos rfl, List.getElem?_eq_getElem]
    · rw [swapLits_get hlen hjl.1, if_neg (by omega), if_neg (by omega)]; rfl
  have hnd2 : lits2.Nodup := hperm2.symm.nodup (by
    rw [List.nodup_cons]; exact ⟨fun hm => hfr (hNsub _ hm).1, hNnd⟩)
  have hlen2 : lits2.length = 1 + N.length := by
    rw [hperm2.length_eq, List.length_cons]; omega
  have hmem2 : ∀ l, l ∈ lits2 ↔ l = first ∨ l ∈ N := fun l => by
    rw [hperm2.mem_iff, List.mem_cons]
  have hsf : second ≠ first := by
    intro e
    have h1 := (List.getElem?_inj (List.getElem?_eq_some_iff.1 hfst).1 hnd2).1
      (hfst.trans (e ▸ hsec.symm))
    omega
  have hsN : second ∈ N := ((hmem2 second).1 (List.mem_iff_getElem?.2 ⟨1, hsec⟩)).resolve_left hsf
  have hsu : second ≠ u := by rintro rfl; exact hn2 (hNsub _ hsN).1
  have hsec' : lits2.getD 1 0 = second := by rw [List.getD_eq_getElem?_getD, hsec]; rfl
  -- the resulting state
  let X := s.shrunkenInProof (first :: u :: rest) u first
  let c' : Clause := ⟨lits2, (s.clause ref).garbage, (s.clause ref).redundant, 2⟩
  let W1 := upd s.watches u ((s.watches u).filter fun w => w.ref? ≠ some ref)
  let W2 := upd W1 second (W1 second ++ [.large first ref])
  let W3 := upd W2 first ((W2 first).map fun w =>
    if w.ref? = some ref then .large second ref else w)
  let pr := s.proof ++ [.add X] ++ [.delete (first :: u :: rest)]
  have heq : strengthenLarge s ref u =
      ({ s.setClause ref c' with watches := W3, proof := pr }, .large ref) := by
    unfold strengthenLarge
    simp only [hl1]
    have e1 : ((first :: u :: rest).drop 2).filter (fun l => decide (s.lev l ≠ 0)) = N := hN
    have hj' := hj
    simp only [List.getD_cons_zero]
    have e2 : ∀ (s' : Solver), s'.lev = s.lev →
        ((first :: u :: rest).drop 2).filter (fun l => decide (s'.lev l ≠ 0)) = N := by
      intro s' hs'; rw [hs']; exact hN
    have e3 : ∀ (s' : Solver), s'.lev = s.lev →
        swapLits (first :: N) 1 (findHighest s'.lev none ((first :: N).drop 2) 2 1
        (s'.lev ((first :: N).getD 1 0))) = lits2 := by
      intro s' hs'; rw [hs']; exact hj
    have e5 : ((s.unwatch u ref).emit (Line.add ((s.unwatch u ref).shrunkenInProof
        (first :: u :: rest) u first))).emit (Line.delete (first :: u :: rest)) =
        { s with watches := W1, proof := pr } := rfl
    rw [e5, e2 { s with watches := W1, proof := pr } rfl,
      e3 { s with watches := W1, proof := pr } rfl]
    simp only [hsec']
    rfl
  rw [heq]
  simp only
  have hW3 : ∀ w, W3 w = if w = first then (s.watches first).map (fun w =>
      if w.ref? = some ref then .large second ref else w) else
      if w = second then s.watches second ++ [.large first ref] else
      if w = u then (s.watches u).filter (fun w => w.ref? ≠ some ref) else s.watches w := by
    intro w
    show upd W2 first _ w = _
    by_cases e1 : w = first
    · rw [if_pos e1, e1, upd_same]
      show List.map _ (upd W1 second _ first) = _
      rw [upd_other _ _ (Ne.symm hsf)]
      show List.map _ (upd s.watches u _ first) = _
      rw [upd_other _ _ hfu]
    · rw [if_neg e1, upd_other _ _ e1]
      show upd W1 second _ w = _
      by_cases e2 : w = second
      · rw [if_pos e2, e2, upd_same]
        show upd s.watches u _ second ++ _ = _
        rw [upd_other _ _ hsu]
      · rw [if_neg e2, upd_other _ _ e2]
        show upd s.watches u _ w = _
        by_cases e3 : w = u
        · rw [if_pos e3, e3, upd_same]
        · rw [if_neg e3, upd_other _ _ e3]
  have hs2 : ∀ y, Watch.large y ref ∉ s.watches second := by
    intro y hy
    rcases (hwf second).1 (hi.watch.back second y ref hy hlive).1 with e | e
    · exact hsf e
    · exact hsu e
  have hB : SameBin W3 s.watches := by
    intro a b
    rw [hW3]
    split
    · rename_i e; subst e
      simp only [List.count, List.countP_map]
      refine List.countP_congr fun x _ => ?_
      cases x with
      | binary o => simp [Watch.ref?]
      | large y z => simp only [Function.comp]; split <;> simp
    · split
      · rename_i e; subst e; rw [List.count_append]; simp
      · split
        · rename_i e; subst e; rw [List.count_filter (by simp [Watch.ref?])]
        · rfl
  have hbin := hB.iff
  have hother : ∀ w y z, z ≠ ref → (Watch.large y z ∈ W3 w ↔ Watch.large y z ∈ s.watches w) := by
    intro w y z hz
    rw [hW3]
    split
    · rename_i e; subst e
      rw [List.mem_map]
      constructor
      · rintro ⟨x, hx, e⟩
        split at e
        · injection e with _ e; exact absurd e.symm hz
        · rw [← e]; exact hx
      · intro hx
        refine ⟨_, hx, ?_⟩
        simp [Watch.ref?, hz]
    · split
      · rename_i e; subst e; simp [hz]
      · split
        · rename_i e; subst e; simp [Watch.ref?, hz]
        · rfl
  have hself : ∀ w y, Watch.large y ref ∈ W3 w → (w = first ∧ y = second) ∨ (w = second ∧ y = first) := by
    intro w y hx
    rw [hW3] at hx
    split at hx
    · rename_i e
      rw [List.mem_map] at hx
      obtain ⟨x, hx, e'⟩ := hx
      split at e'
      · injection e' with e' _; exact .inl ⟨e, e'.symm⟩
      · rename_i hne; rw [e'] at hne; exact absurd rfl hne
    · split at hx
      · rename_i e
        rcases List.mem_append.1 hx with hx | hx
        · exact absurd hx (hs2 y)
        · simp at hx; exact .inr ⟨e, hx⟩
      · split at hx
        · rename_i e
          simp [Watch.ref?] at hx
        · rename_i n1 n2 n3
          rcases (hwf w).1 (hi.watch.back w y ref hx hlive).1 with e | e
          · exact absurd e n1
          · exact absurd e n3
  have hfw : c'.Watched first := .inl hfst
  have hsw : c'.Watched second := .inr hsec
  have hcw : ∀ w, c'.Watched w → w = first ∨ w = second := by
    rintro w (hw | hw)
    · exact .inl (Option.some.inj (hw.symm.trans hfst))
    · exact .inr (Option.some.inj (hw.symm.trans hsec))
  have hin1 : Watch.large second ref ∈ W3 first := by
    rw [hW3, if_pos rfl, List.mem_map]
    obtain ⟨y, hy⟩ := (hi.watch.watched ref hlive first ((hwf first).2 (.inl rfl))).resolve_right (by
      rintro ⟨t, h1, h2, h3⟩
      by_cases e : t = u
      · subst e
        have := h.lev
        omega
      · have := (hfalse t h1 e).1
        omega)
    exact ⟨_, hy, by simp [Watch.ref?]⟩
  have hin2 : Watch.large first ref ∈ W3 second := by
    rw [hW3, if_neg hsf, if_pos rfl]; simp
  have honce : ∀ w, ((W3 w).filterMap Watch.ref?).Nodup := by
    intro w
    rw [hW3]
    split
    · rw [List.filterMap_map]
      have : (Watch.ref? ∘ fun w => if w.ref? = some ref then Watch.large second ref else w) =
          Watch.ref? := by
        funext x
        simp only [Function.comp]
        split
        · rename_i e; rw [e]; rfl
        · rfl
      rw [this]; exact hi.watch.once first
    · split
      · rw [List.filterMap_append, List.nodup_append]
        refine ⟨hi.watch.once second, by simp [Watch.ref?], fun x hx y hy e => ?_⟩
        have hy : y = ref := by simpa [Watch.ref?] using hy
        subst e hy
        obtain ⟨v, hv, hvr⟩ := List.mem_filterMap.1 hx
        cases v with
        | binary o => cases hvr
        | large y z =>
          have hvr : some z = some x := hvr
          cases hvr
          exact hs2 y hv
      · split
        · exact (List.filter_sublist.filterMap _).nodup (hi.watch.once u)
        · exact hi.watch.once w
  have hshr : Shrunk s ref c' := by
    refine ⟨hlive, hlive, fun l hl => ?_, ?_, hnd2, ?_, fun h => h⟩
    · rw [← hperm.mem_iff]
      rcases (hmem2 l).1 hl with e | e
      · simp [e]
      · simp [(hNsub l e).1]
    · show 3 ≤ lits2.length; omega
    · show 2 ≤ 2 ∧ 2 < lits2.length; omega
  have hwinv : WatchInv { s.setClause ref c' with watches := W3 } := by
    refine hi.watch.rewire hlt hother (fun w y hx _ => ?_) (fun _ w hw => ?_) honce
    · rcases hself w y hx with ⟨rfl, rfl⟩ | ⟨rfl, rfl⟩
      · exact ⟨hfw, (hmem2 y).2 (.inr hsN)⟩
      · exact ⟨hsw, (hmem2 y).2 (.inl rfl)⟩
    · rcases hcw w hw with rfl | rfl
      · exact .inl ⟨_, hin1⟩
      · exact .inl ⟨_, hin2⟩
  have hfalse' : ∀ m, m = first ∨ m ∈ rest → s.values m = -1 ∧ (s.lev m = 0 ∨ s.pos m < s.pos u) := by
    intro m hm
    have h1 := (hant m).2 hm
    have : s.antecedents u = (s.clause ref).lits.filter (· ≠ u) := by
      unfold Solver.antecedents; rw [hre]
    rw [this, List.mem_filter] at h1
    have := hfalse m h1.1 (by simpa using h1.2)
    exact ⟨this.1, this.2.2⟩
  have hX : SameLits X lits2 := by
    intro l
    rw [hmem2]
    show l ∈ Solver.shrunkenInProof s (first :: u :: rest) u first ↔ _
    unfold Solver.shrunkenInProof
    rw [List.mem_filter]
    simp only [List.mem_cons, decide_eq_true_eq]
    constructor
    · rintro ⟨h1, h2, h3⟩
      rcases h1 with h1 | h1 | h1
      · exact .inl h1
      · exact absurd h1 h2
      · rcases h3 with h3 | h3
        · exact .inl h3
        · refine .inr (hNall l h1 fun h0 => h3 ⟨?_, h0⟩)
          have := (hfalse' l (.inr h1)).1
          omega
    · rintro (rfl | hl)
      · exact ⟨.inl rfl, hfu, .inl rfl⟩
      · obtain ⟨h1, h2⟩ := hNsub l hl
        exact ⟨.inr (.inr h1), fun e => hn2 (e ▸ h1), .inr fun hh => h2 hh.2⟩
  have hrup : RUP s.formula X := by
    refine RUP.mono (c := (s.antecedents u).filter fun m => decide (s.lev m ≠ 0))
      (fun c hc => ⟨c, hc, .refl c⟩) (fun l hl => ?_) (.inl h.rup)
    rw [List.mem_filter, hant] at hl
    obtain ⟨hl | hl, h2⟩ := hl
    · exact (hX l).2 ((hmem2 l).2 (.inl hl))
    · exact (hX l).2 ((hmem2 l).2 (.inr (hNall l hl (by simpa using h2))))
  have hok' : OkAt orig G s.level (s.pos u) { s.setClause ref c' with watches := W3, proof := pr } := by
    refine hok.replace hshr (Nat.le_refl _) (Nat.le_of_lt h.pos) hB ?_ hwinv ?_
    · intro l hl hrl hk
      have e := reason_unique hi hv hre hum hl hrl (hk.imp id fun hh => Nat.lt_trans hh h.pos)
      subst e
      have := h.lev
      omega
    · obtain ⟨db, h5, h6⟩ := hok.proof
      have hvF : ∀ l ∈ first :: u :: rest, l / 2 < s.vars := fun l hl =>
        (hi.clause.valid ref hlive l (hperm.mem_iff.1 hl)).1
      have hvX : ∀ l ∈ X, l / 2 < s.vars := fun l hl => by
        rcases (hmem2 l).1 ((hX l).1 hl) with e | e
        · exact hvF l (by simp [e])
        · exact hvF l (by simp [(hNsub l e).1])
      have hvD : ∃ d ∈ X :: db, SameLits (first :: u :: rest) d := by
        obtain ⟨d, h1, h2⟩ := h6.mem (.inl ⟨ref, hlive, rfl⟩)
        exact ⟨d, .tail _ h1, fun l => hperm.mem_iff.trans (h2 l)⟩
      refine ⟨deleteClause (X :: db) (first :: u :: rest), Deletes.delete (orig.add h5 (h6.rup hrup) hvX) hvF hvD,
        Covers.delete (hperm.symm.nodup hnd0) (by rw [hperm.length_eq]; exact hsize)
        (fun Y => ?_) (fun a b => ?_) (fun l h1 h2 => ?_) (fun hin => .tail _ (h6.4 hin))⟩
      · have e := copies_set (s := s) hlt c' Y
        have g : (s.clause ref).garbage = false := hlive
        rw [g, sameLits_congr (c := (s.clause ref).lits) (d := first :: u :: rest)
          (fun l => hperm.symm.mem_iff)] at e
        have e2 : sameLits Y X = sameLits Y c'.lits := sameLits_congr hX Y
        have := h6.1 Y
        have e3 : ({ s.setClause ref c' with watches := W3 } : Solver).copies Y =
          (s.setClause ref c').copies Y := rfl
        rw [e3, List.countP_cons, e2]
        simp only [Bool.not_false, Bool.true_and] at e
        omega
      · rw [List.countP_cons]
        exact Nat.le_trans (Nat.le_of_eq (hB a b)) (Nat.le_trans (h6.2 a b) (Nat.le_add_right _ _))
      · obtain ⟨d, hd, hs⟩ := h6.3 l h1 h2; exact ⟨d, .tail _ hd, hs⟩
  have hoth : ∀ r, r ≠ ref →
      ({ s.setClause ref c' with watches := W3, proof := pr } : Solver).clause r = s.clause r :=
    fun r hr => setClause_other hr
  have hsame : ({ s.setClause ref c' with watches := W3, proof := pr } : Solver).clause ref = c' :=
    setClause_same hlt
  refine ⟨hok', rfl, rfl, rfl, rfl, rfl, ⟨rfl, rfl, rfl, rfl, rfl, rfl, fun _ _ h => ⟨rfl, h⟩⟩, ?_, ?_, ?_, hoth,
    fun r hr => (Conflict.large.inj hr).symm, ?_⟩
  · refine hw.edit rfl rfl rfl rfl rfl (fun r w hn hr _ => ?_) (fun w o hn ho => ?_)
    · have hr' : r ≠ ref := fun e => hn (.inr (by rw [e]))
      unfold Solver.Live at hr
      rw [hoth r hr'] at hr ⊢
      exact ⟨fun hh => hn (.inl hh), hr, rfl⟩
    · exact ⟨fun hh => hn (.inl hh), (hbin w o).1 ho⟩
  · refine ⟨?_, ?_⟩
    · unfold Solver.Live; rw [hsame]; exact hlive
    · rw [hsame]
      intro l hl
      exact (hfalse' l (((hmem2 l).1 hl).imp id fun hh => (hNsub l hh).1)).1
  · intro m hm
    have hm : m ∈ (({ s.setClause ref c' with watches := W3, proof := pr } : Solver).clause ref).lits := hm
    rw [hsame] at hm
    exact (hant m).2 (((hmem2 m).1 hm).imp id fun hh => (hNsub m hh).1)
  · have e1 := totalSize_set (s := s) hlt c'
    have e2 : ({ s.setClause ref c' with watches := W3, proof := pr } : Solver).totalSize =
      (s.setClause ref c').totalSize := rfl
    have g : (s.clause ref).garbage = false := hlive
    have hlc : (s.clause ref).lits.length = rest.length + 2 := by
      rw [← hperm.length_eq]; rfl
    have hlc' : c'.lits.length = 1 + N.length := hlen2
    rw [g] at e1
    rw [if_neg (by simp), if_neg (by simp)] at e1
    show (s.setClause ref c').totalSize < s.totalSize
    omega

theorem OkAt.conflicts {orig : Base} [Deletes orig] {G : Assignment → Prop} {s : Solver} {L k : Nat}
    (h : OkAt orig G L k s) (n : Nat) : OkAt orig G L k { s with conflicts := n } := by
  obtain ⟨⟨h1, h2, h3, h4⟩, ⟨db, h5, h6⟩, h7⟩ := h
  exact ⟨⟨⟨h1.1, h1.2, h1.3, h1.4, h1.5, h1.6, h1.7, h1.8, h1.9, h1.10, h1.11, h1.12, h1.13⟩,
    ⟨h2.1, h2.2, h2.3, h2.4, h2.5⟩, ⟨h3.1, h3.2, h3.3, h3.4, h3.5, h3.6, h3.7⟩,
    ⟨h4.1, h4.2, h4.3, h4.4⟩⟩, ⟨db, h5, ⟨h6.1, h6.2, h6.3, h6.4⟩⟩, h7⟩

/-- Making a clause irredundant. -/
theorem OkAt.irredundant {orig : Base} [Deletes orig] {G : Assignment → Prop} {s : Solver} {L k : Nat}
    (hok : OkAt orig G L k s) {r : Nat} (hr : s.Live r) :
    OkAt orig G L k (s.setClause r ⟨(s.clause r).lits, (s.clause r).garbage, false,
      (s.clause r).searched⟩) := by
  have hlt := clause_lt hr
  have hc := hok.inv.clause
  have hsh : Shrunk s r ⟨(s.clause r).lits, (s.clause r).garbage, false, (s.clause r).searched⟩ :=
    ⟨hr, hr, fun _ h => h, hc.size r hr, hc.nodup r hr, hc.searched r hr, fun _ => rfl⟩
  obtain ⟨db, h5, h6⟩ := hok.proof
  refine hok.replace hsh (W := s.watches) (pr := s.proof) (Nat.le_refl _) (Nat.le_refl _)
    (SameBin.refl _) (fun l hv hre hk => ?_) ?_ ⟨db, h5, ?_⟩
  · obtain ⟨_, x2, _, x4⟩ := hok.inv.reason.large l r hv hre hk
    exact ⟨x2, x4⟩
  · exact hok.inv.watch.rewire hlt (fun _ _ _ _ => Iff.rfl)
      (fun w y hy _ => hok.inv.watch.back w y r hy hr)
      (fun _ w hw => hok.inv.watch.watched r hr w hw) hok.inv.watch.once
  · refine ⟨fun Y => ?_, h6.2, h6.3, h6.4⟩
    have e := copies_set (s := s) hlt ⟨(s.clause r).lits, (s.clause r).garbage, false,
      (s.clause r).searched⟩ Y
    have := h6.1 Y
    have e3 : ({ s.setClause r ⟨(s.clause r).lits, (s.clause r).garbage, false,
      (s.clause r).searched⟩ with watches := s.watches } : Solver).copies Y =
      (s.setClause r ⟨(s.clause r).lits, (s.clause r).garbage, false,
      (s.clause r).searched⟩).copies Y := rfl
    show ({ s.setClause r ⟨(s.clause r).lits, (s.clause r).garbage, false,
      (s.clause r).searched⟩ with watches := s.watches } : Solver).copies Y ≤ _
    rw [e3]
    simp only at e
    omega

/-- What on-the-fly subsumption keeps. -/
structure Subsumed (s s' : Solver) (rc : Nat) : Prop where
  values : s'.values = s.values
  assigned : s'.assigned = s.assigned
  trail : s'.trail = s.trail
  frames : s'.frames = s.frames
  level : s'.level = s.level
  watches : s'.watches = s.watches
  kept : Kept s s'
  lits : ∀ r, (s'.clause r).lits = (s.clause r).lits
  live : ∀ r, s'.Live r ↔ r ≠ rc ∧ s.Live r
  size : s'.totalSize ≤ s.totalSize

theorem totalSize_garbage {s : Solver} {r : Nat} (hr : s.Live r) :
    (s.markGarbage r).totalSize ≤ s.totalSize := by
  have e1 := totalSize_set (s := s) (clause_lt hr)
    ⟨(s.clause r).lits, true, (s.clause r).redundant, (s.clause r).searched⟩
  have e2 : (s.markGarbage r).totalSize = (s.setClause r ⟨(s.clause r).lits, true,
    (s.clause r).redundant, (s.clause r).searched⟩).totalSize := rfl
  simp only [if_true] at e1
  omega

theorem Subsumed.mark {s : Solver} {r : Nat} (hr : s.Live r) : Subsumed s (s.markGarbage r) r := by
  refine ⟨rfl, rfl, rfl, rfl, rfl, rfl, ⟨rfl, rfl, rfl, rfl, rfl, rfl, fun _ _ h => ⟨rfl, h⟩⟩, fun r' => ?_,
    markGarbage_live hr, totalSize_garbage hr⟩
  rw [markGarbage_clause hr]
  split
  · rename_i e; rw [e]
  · rfl

theorem satClause_of_sub {orig : Base} [Deletes orig] {G : Assignment → Prop} {s s' : Solver}
    {L k : Nat} (hok : OkAt orig G L k s) (hv : s'.values = s.values)
    (ha : s'.assigned = s.assigned) {c d : List Nat} (hfalse : ∀ l ∈ c, s.values l = -1)
    (hsub : ∀ l ∈ c, s.lev l ≠ 0 → l ∈ d) {σ : Assignment} (hσ : SatFormula σ s'.irr)
    (hc : SatClause σ c) : SatClause σ d := by
  obtain ⟨l, hl, hs⟩ := hc
  refine ⟨l, hsub l hl fun h0 => ?_, hs⟩
  obtain ⟨m, hm, hs'⟩ := hσ [neg l] (.inr (.inr ⟨neg l, by
    rw [hv]; exact hok.inv.trail.neg_pos.2 (hfalse l hl), by
    have : s'.lev (neg l) = s.lev (neg l) := by unfold Solver.lev; rw [ha]
    rw [this, lev_neg, h0], rfl⟩))
  rw [List.mem_singleton] at hm
  subst hm
  exact (litTrue_neg σ l).1 hs' hs

theorem subsume_ok {orig : Base} [Deletes orig] {G : Assignment → Prop} {s : Solver} {L k rc : Nat}
    {res : Conflict} (hok : OkAt orig G L k s) (hrc : s.Live rc)
    (hfalse : ∀ l ∈ (s.clause rc).lits, s.values l = -1) (hres : ConflictOk s res)
    (hne : res ≠ .large rc) (hsub : ∀ l ∈ s.conflictLits res, s.lev l ≠ 0 → l ∈ (s.clause rc).lits) :
    OkAt orig G L k (subsume s res rc) ∧ Subsumed s (subsume s res rc) rc := by
  have hre : ∀ l, s.values l = 1 → (s.assigned (l / 2)).reason = .large rc →
      ¬ (s.lev l < L ∨ s.pos l < k) := by
    intro l hv hre hk
    obtain ⟨_, x2, _, _⟩ := hok.inv.reason.large l rc hv hre hk
    have : l ∈ (s.clause rc).lits := by
      rcases x2 with h | h <;> exact List.mem_iff_getElem?.2 ⟨_, h⟩
    have := hfalse l this
    omega
  cases res with
  | binary a b =>
    refine ⟨hok.garbage hrc (Nat.le_refl _) (Nat.le_refl _) hre fun _ σ hσ => ?_, .mark hrc⟩
    exact satClause_of_sub hok (s' := s.markGarbage rc) rfl rfl hres.false hsub hσ
      (hσ _ (.inr (.inl ⟨a, b, hres.1, rfl⟩)))
  | large r =>
    have hrne : r ≠ rc := fun e => hne (by rw [e])
    have hcr : (s.markGarbage rc).clause rc = { s.clause rc with garbage := true } := by
      rw [markGarbage_clause hrc, if_pos rfl]
    have hcr' : (s.markGarbage rc).clause r = s.clause r := by
      rw [markGarbage_clause hrc, if_neg hrne]
    unfold subsume
    simp only [hcr, hcr']
    by_cases hred : (s.clause rc).redundant = true
    · rw [if_pos hred]
      exact ⟨hok.garbage hrc (Nat.le_refl _) (Nat.le_refl _) hre
        (fun h => by rw [hred] at h; cases h), .mark hrc⟩
    · rw [if_neg hred]
      have hr : s.Live r := hres.1
      have hlt := clause_lt hr
      have hok1 := hok.irredundant hr
      let s1 := s.setClause r ⟨(s.clause r).lits, (s.clause r).garbage, false,
        (s.clause r).searched⟩
      have hc1 : s1.clause rc = s.clause rc := setClause_other (Ne.symm hrne)
      have hcs : s1.clause r = ⟨(s.clause r).lits, (s.clause r).garbage, false,
        (s.clause r).searched⟩ := setClause_same hlt
      have heq : (s.markGarbage rc).setClause r { s.clause r with redundant := false } =
          s1.markGarbage rc := by
        have hc1' : (s.setClause r ⟨(s.clause r).lits, (s.clause r).garbage, false,
          (s.clause r).searched⟩).clause rc = s.clause rc := hc1
        show (s.markGarbage rc).setClause r _ = Solver.markGarbage (s.setClause r ⟨(s.clause r).lits,
          (s.clause r).garbage, false, (s.clause r).searched⟩) rc
        unfold Solver.markGarbage
        simp only [hc1']
        unfold Solver.setClause Solver.emit
        simp only
        congr 1
        exact List.set_comm _ _ (Ne.symm hrne)
      rw [heq]
      have hrc1 : s1.Live rc := by unfold Solver.Live; rw [hc1]; exact hrc
      have hm := Subsumed.mark hrc1
      have hlits : ∀ r', (s1.clause r').lits = (s.clause r').lits := by
        intro r'
        by_cases e : r' = r
        · rw [e, hcs]
        · rw [show s1.clause r' = s.clause r' from setClause_other e]
      have hlive : ∀ r', s1.Live r' ↔ s.Live r' := by
        intro r'
        unfold Solver.Live
        by_cases e : r' = r
        · rw [e, hcs]
        · rw [show s1.clause r' = s.clause r' from setClause_other e]
      refine ⟨hok1.garbage hrc1 (Nat.le_refl _) (Nat.le_refl _) hre fun _ σ hσ => ?_, ?_⟩
      · rw [show (s.setClause r ⟨(s.clause r).lits, (s.clause r).garbage, false,
          (s.clause r).searched⟩).clause rc = s.clause rc from hc1]
        refine satClause_of_sub hok (s' := s1.markGarbage rc) rfl rfl hres.false hsub hσ ?_
        have hcm : (s1.markGarbage rc).clause r = s1.clause r := by
          rw [markGarbage_clause hrc1, if_neg hrne]
        refine hσ _ (.inl ⟨r, (markGarbage_live hrc1 r).2 ⟨hrne, (hlive r).2 hr⟩, ?_, ?_⟩)
        · show ((s1.markGarbage rc).clause r).redundant = false
          rw [hcm, hcs]
        · show (s.clause r).lits = ((s1.markGarbage rc).clause r).lits
          rw [hcm, hcs]
      · refine ⟨hm.values, hm.assigned, hm.trail, hm.frames, hm.level, hm.watches,
          ⟨hm.kept.1, hm.kept.2, hm.kept.3, hm.kept.4, hm.kept.5, hm.kept.6, hm.kept.7⟩,
          fun r' => (hm.lits r').trans (hlits r'), fun r' => ?_, ?_⟩
        · rw [hm.live, hlive]
        · have := hm.size
          have e := totalSize_set (s := s) hlt ⟨(s.clause r).lits, (s.clause r).garbage, false,
            (s.clause r).searched⟩
          have e' : s1.totalSize = (s.setClause r ⟨(s.clause r).lits, (s.clause r).garbage, false,
            (s.clause r).searched⟩).totalSize := rfl
          simp only at e
          omega

/-- The state in which analysis goes on after strengthening. -/
def resume (s : Solver) (c res : Conflict) (b : Bool) : Solver :=
  if b then
    match c with
    | .large r => subsume s res r
    | .binary _ _ => s
  else s

theorem again_ok {orig : Base} [Deletes orig] {G : Assignment → Prop} {s s' : Solver} {c res : Conflict}
    {k u n ref : Nat} {t : Analysis} (hm : Many orig G s c)
    (hok : OkAt orig G s.level k s) (h : Shorter s k u t n (s.conflictLits c))
    (hre : (s.assigned (u / 2)).reason = .large ref)
    (ho : ∀ kk, WatchingX s kk (fun _ w => s.level ≤ s.lev w) (fun w _ => s.level ≤ s.lev w) →
      Otfs orig G s u ref kk s' res) (b : Bool)
    (hb : b = true → n = 1 ∧ t.resolventSize <
      ((s.conflictLits c).filter fun l => decide (s.lev l ≠ 0)).length) (cf : Nat) :
    AInv orig G { resume s' c res b with conflicts := cf } res ∧
    Kept s { resume s' c res b with conflicts := cf } ∧
    ({ resume s' c res b with conflicts := cf } : Solver).totalSize < s.totalSize := by
  obtain ⟨kk, hw, hf⟩ := hm.watch
  have ho := ho kk hw
  have hv := hok.inv.trail.tval u h.mem
  obtain ⟨hlive, hwt, _, _⟩ := hok.inv.reason.large u ref hv hre (.inr h.pos)
  have hum : u ∈ (s.clause ref).lits := by
    rcases hwt with h | h <;> exact List.mem_iff_getElem?.2 ⟨_, h⟩
  have hlv : s'.lev = s.lev := by funext x; unfold Solver.lev; rw [ho.assigned]
  have hps : s'.pos = s.pos := by funext x; unfold Solver.pos; rw [ho.assigned]
  -- the strengthened conflict
  have key : ∀ s2 : Solver, OkAt orig G s.level (s.pos u) s2 → s2.values = s.values →
      s2.assigned = s.assigned → s2.frames = s.frames → s2.level = s.level → Kept s s2 →
      WatchingX s2 kk (exL s s.level res) (exB s s.level res) → ConflictOk s2 res →
      s2.conflictLits res = s'.conflictLits res → s2.totalSize < s.totalSize →
      AInv orig G { s2 with conflicts := cf } res ∧ Kept s { s2 with conflicts := cf } ∧
      ({ s2 with conflicts := cf } : Solver).totalSize < s.totalSize := by
    intro s2 k1 kv ka kf kl kk' kw kc kcl ksz
    have klv : s2.lev = s.lev := by funext x; unfold Solver.lev; rw [ka]
    have kps : s2.pos = s.pos := by funext x; unfold Solver.pos; rw [ka]
    refine ⟨⟨?_, ?_, ⟨s.pos u, ?_, ?_⟩, ⟨kk, ?_, ?_⟩⟩, ⟨kk'.1, kk'.2, kk'.3, kk'.4, kk'.5, kk'.6, kk'.7⟩, ksz⟩
    · show 0 < s2.level; rw [kl]; exact hm.pos
    · cases res with
      | binary a b => exact ⟨kc.1, kc.2⟩
      | large r => exact ⟨kc.1, kc.2⟩
    · have := k1.conflicts cf
      rw [← kl] at this; exact this
    · intro l hl hll
      have hl : l ∈ s2.conflictLits res := by
        cases res <;> exact hl
      rw [kcl] at hl
      have hll : s2.lev l = s2.level := hll
      rw [klv, kl] at hll
      show s2.pos l < s.pos u
      rw [kps]
      have := (antecedents_ok hok.inv hv (by rw [h.lev]; exact Nat.pos_iff_ne_zero.1 hm.pos) (.inr h.pos) h.implied).1 l
        (ho.sub l hl)
      have hp := hm.pos
      have := this.2.2
      omega
    · show WatchingX _ kk (exL _ s2.level res) (exB _ s2.level res)
      have e1 : exL ({ s2 with conflicts := cf } : Solver) s2.level res = exL s s.level res := by
        funext r w
        unfold exL
        rw [show ({ s2 with conflicts := cf } : Solver).lev = s.lev from klv, kl]
      have e2 : exB ({ s2 with conflicts := cf } : Solver) s2.level res = exB s s.level res := by
        funext r w
        unfold exB
        rw [show ({ s2 with conflicts := cf } : Solver).lev = s.lev from klv, kl]
      rw [e1, e2]
      exact ⟨kw.1, kw.2⟩
    · show ∀ f ∈ s2.frames, _
      rw [kf]; exact hf
  have plain := key s' ho.ok ho.values ho.assigned ho.frames ho.level ho.kept ho.watch ho.conf rfl
    ho.size
  cases b with
  | false => exact plain
  | true =>
    cases c with
    | binary x y => exact plain
    | large rc =>
      have hrc : s.Live rc := hm.conf.1
      have hne : rc ≠ ref := by
        rintro rfl
        have := hm.conf.2 u hum
        omega
      have hcl := ho.other rc hne
      obtain ⟨hn1, hn2⟩ := hb rfl
      have hfirst := h.first hn1 hn2
      have hrc' : s'.Live rc := by unfold Solver.Live; rw [hcl]; exact hrc
      have hresne : res ≠ .large rc := fun e => hne (ho.res rc e)
      obtain ⟨j1, j2⟩ := subsume_ok ho.ok hrc' (by rw [hcl, ho.values]; exact hm.conf.2) ho.conf
        hresne (by
          intro l hl h0
          rw [hlv] at h0
          rw [hcl]
          exact hfirst l (ho.sub l hl) h0)
      refine key (subsume s' res rc) j1 (j2.values.trans ho.values) (j2.assigned.trans ho.assigned)
        (j2.frames.trans ho.frames) (j2.level.trans ho.level) (ho.kept.trans j2.kept) ?_ ?_ ?_
        (Nat.lt_of_le_of_lt j2.size ho.size)
      · refine ho.watch.edit j2.values j2.assigned j2.trail j2.frames j2.kept.loose (fun r w hn hr _ => ?_)
          (fun w o hn hw => ?_)
        · exact ⟨hn, ((j2.live r).1 hr).2, j2.lits r⟩
        · rw [j2.watches] at hw; exact ⟨hn, hw⟩
      · have hc := ho.conf
        cases res with
        | binary a b =>
          refine ⟨?_, ?_⟩
          · rw [j2.watches]; exact hc.1
          · rw [j2.values]; exact hc.2
        | large r =>
          refine ⟨(j2.live r).2 ⟨fun e => hresne (by rw [e]), hc.1⟩, ?_⟩
          rw [j2.lits, j2.values]; exact hc.2
      · cases res with
        | binary a b => rfl
        | large r => exact j2.lits r

end Verif.Core
