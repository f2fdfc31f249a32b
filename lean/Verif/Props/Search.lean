import Verif.Proofs.Whole.Reach
import Verif.Proofs.Limits
import Verif.Proofs.Examples

/-!
# Propagation, analysis, backtracking, reduction (C35 - C41, C59)

`Reachable t`: `t` is the state at the beginning of an iteration of the search loop
after some sequence of library calls, lucky phases, preprocessing, and earlier iterations with inprocessing before any
of them.  `Seen s`: `s` occurs at such a point, after propagation or during conflict analysis (`Model/WholeReach.lean`).
`s.formula` are the clauses the solver holds: live large clauses, binary clauses and
root level units.
-/

namespace Verif.Props

open Verif.Core Verif.Spec

theorem inv_before {t : Search} (h : Reachable t) : Inv t.s := by
  obtain ⟨_, _, _, hb⟩ := h.between; exact hb.prop.ok.inv

theorem inv_after {t : Search} (h : Reachable t) : Inv (searchPropagate t.s).1 := by
  obtain ⟨_, _, _, hb⟩ := h.between; exact (searchPropagate_ok hb.prop).2.1.inv

/-- C35: after propagation (with or without a conflict) every true literal is a
consequence of the clauses and the decisions. -/
theorem C35_implied {t : Search} (h : Reachable t) (σ : Assignment)
    (hF : SatFormula σ (searchPropagate t.s).1.formula)
    (hd : ∀ f ∈ (searchPropagate t.s).1.frames, litTrue σ f.decision) :
    ∀ l, (searchPropagate t.s).1.values l = 1 → litTrue σ l :=
  (inv_after h).implied hF hd

/-- C35: reasons.  A literal above the root level is the decision of its level, or has as
reason a clause of the solver containing it whose other literals are false and were
assigned before, or a binary clause implied by the solver's binary clauses whose other
literal is false and was assigned before. -/
theorem C35_reasons {t : Search} (h : Reachable t) {s : Solver} (hs : s = (searchPropagate t.s).1)
    {l : Nat} (hl : s.values l = 1) (hlev : s.lev l ≠ 0) :
    match (s.assigned (l / 2)).reason with
    | .unit => False
    | .decision => ∃ f, s.frames[s.lev l - 1]? = some f ∧ f.decision = l
    | .binary o => s.values o = -1 ∧ s.pos o < s.pos l ∧ Entails s.bins [l, o]
    | .large r => s.formula (s.clause r).lits ∧ l ∈ (s.clause r).lits ∧
        ∀ m ∈ (s.clause r).lits, m ≠ l → s.values m = -1 ∧ (s.lev m = 0 ∨ s.pos m < s.pos l) := by
  subst hs
  have hi := inv_after h
  generalize (searchPropagate t.s).1 = s at *
  cases hr : (s.assigned (l / 2)).reason with
  | unit => exact hi.reason.unit l hl hlev hr
  | decision => exact hi.reason.decision l hl hr
  | binary o =>
    obtain ⟨h1, h2, h3, h4⟩ := hi.reason.binary l o hl hr
    refine ⟨h1, h3, fun σ hσ => ?_⟩
    by_cases ho : litTrue σ o
    · exact ⟨o, by simp, ho⟩
    · refine ⟨l, by simp, UP.sound hσ (fun x hx => ?_) h4⟩
      rw [hx, litTrue_neg]; exact ho
  | large r =>
    obtain ⟨h1, h2, h3, h4⟩ := hi.reason.large l r hl hr
      (.inl (by have := hi.trail.levle l hl; omega))
    refine ⟨formula_large h1, ?_, fun m hm hne => ⟨(h3 m hm hne).1, (h3 m hm hne).2.2⟩⟩
    rcases h2 with h | h
    · exact List.mem_of_getElem? h
    · exact List.mem_of_getElem? h

/-- C35: a reported conflict is a clause of the solver all of whose literals are false; at
the root level the solver is marked inconsistent instead. -/
theorem C35_conflict {t : Search} (h : Reachable t) {c : Conflict}
    (hc : (searchPropagate t.s).2 = some c) :
    if t.s.level = 0 then (searchPropagate t.s).1.inconsistent = true else
      (searchPropagate t.s).1.formula ((searchPropagate t.s).1.conflictLits c) ∧
      ∀ l ∈ (searchPropagate t.s).1.conflictLits c, (searchPropagate t.s).1.values l = -1 := by
  obtain ⟨_, _, _, hb⟩ := h.between
  obtain ⟨_, _, _, hp⟩ := searchPropagate_ok hb.prop
  rw [hc] at hp
  simp only at hp
  split
  · rename_i h0; rw [if_pos h0] at hp; exact hp
  · rename_i h0; rw [if_neg h0] at hp
    exact ⟨hp.2.1.formula, hp.2.1.false⟩

/-- Formula of the examples: two binary clauses and a clause of size three. -/
def exF : List Int := [-1, 2, 0, -1, 3, 0, -2, -3, 4, 0]

/-- After the decision 1 the literals 2, 3, 4 are propagated, 4 by the large clause. -/
example : ∃ t, Reachable t ∧ (t.s.level == 1 &&
    ((searchPropagate t.s).1.trail == [0, 2, 4, 6] &&
      ((searchPropagate t.s).1.assigned 3).reason == .large 0 &&
      (searchPropagate t.s).2.isNone)) = true :=
  exReach_sound (es := exF) (os := [exDecide [0, 1, 2, 3] true]) (by decide)

/-- C36 (partial: after garbage collection on a positive decision level only
`C36_no_false_clause` holds, see `C36_missed_after_collection`).  After propagation without
conflict every clause is satisfied or has two unassigned literals: no clause is false and
none is unit with its literal unassigned. -/
theorem C36_complete_partial {t : Search} (h : Reachable t) (hl : t.s.loose = false ∨ t.s.level = 0)
    (hc : (searchPropagate t.s).2 = none) {c : List Nat}
    (hF : (searchPropagate t.s).1.formula c) :
    (∃ l ∈ c, (searchPropagate t.s).1.values l = 1) ∨
    ∃ l ∈ c, ∃ k ∈ c, l ≠ k ∧ (searchPropagate t.s).1.values l = 0 ∧
      (searchPropagate t.s).1.values k = 0 := by
  obtain ⟨_, _, _, hb⟩ := h.between
  obtain ⟨hsame, _, hlev, hp⟩ := searchPropagate_ok hb.prop
  rw [hc] at hp
  obtain ⟨hP, hfull, _⟩ := hp
  have hl : (searchPropagate t.s).1.loose = false ∨ (searchPropagate t.s).1.level = 0 :=
    hl.imp hsame.loose.trans hlev.trans
  generalize (searchPropagate t.s).1 = s at *
  have ht := hP.ok.inv.trail
  have hw := hP.watching
  rw [hfull] at hw
  have hdrop : ∀ x, x ∉ s.trail.drop s.trail.length := by simp
  rcases hF with ⟨r, hr, rfl⟩ | ⟨a, b, hab, rfl⟩ | ⟨l, hl, _, rfl⟩
  · have hsz := hP.ok.inv.clause.size r hr
    have hnd := hP.ok.inv.clause.nodup r hr
    have key : ∀ w, (s.clause r).Watched w → s.values w = 0 ∨
        ∃ l ∈ (s.clause r).lits, s.values l = 1 := by
      intro w hww
      have hm : w ∈ (s.clause r).lits := by
        rcases hww with h | h <;> exact List.mem_of_getElem? h
      rcases ht.dom w with d | d | d
      · exact .inr ⟨w, hm, d⟩
      · exact .inl d
      · rcases hw.large r hr w hww d (hdrop _) with ⟨x, hx, hx1, _⟩ | ⟨e1, e2, _⟩
        · exact .inr ⟨x, hx, hx1⟩
        · rcases hl with hl | hl
          · rw [hl] at e1; cases e1
          · have := ht.levle (neg w) (ht.neg_pos.2 d)
            rw [lev_neg] at this
            omega
    generalize hls : (s.clause r).lits = ls at *
    match ls, hsz with
    | x :: y :: rest, _ =>
      have k0 := key x (.inl (by rw [hls]; rfl))
      have k1 := key y (.inr (by rw [hls]; rfl))
      rcases k0 with k0 | k0
      · rcases k1 with k1 | k1
        · refine .inr ⟨x, by simp, y, by simp, ?_, k0, k1⟩
          intro e
          rw [e] at hnd
          simp at hnd
        · exact .inl k1
      · exact .inl k0
  · have hv := hP.ok.inv.clause.bin a b hab
    rcases ht.dom a with d | d | d
    · exact .inl ⟨a, by simp, d⟩
    · rcases ht.dom b with e | e | e
      · exact .inl ⟨b, by simp, e⟩
      · exact .inr ⟨a, by simp, b, by simp, hv.2.1, d, e⟩
      · obtain ⟨x, hx, hx1, _⟩ := hw.binary b a hv.1 e (hdrop _)
        rw [List.mem_singleton.1 hx] at hx1
        exact .inl ⟨a, by simp, hx1⟩
    · obtain ⟨x, hx, hx1, _⟩ := hw.binary a b hab d (hdrop _)
      rw [List.mem_singleton.1 hx] at hx1
      exact .inl ⟨b, by simp, hx1⟩
  · exact .inl ⟨l, by simp, hl⟩

/-- C36: a state with `loose` is only reached by garbage collection. -/
theorem C36_loose {t t' : Search} {o : Oracle} (h : Reachable t) (ho : o.Fair t.s)
    (hit : iteration o t = .next t') (hl : t'.s.loose = true) : t.s.loose = true ∨ o.collecting ≠ none := by
  obtain ⟨_, _, _, hb⟩ := h.between
  have := iteration_ok hb ho
  rw [hit] at this
  exact this.2.2.2.2 hl

/-- C36: in every case no clause is false after propagation without conflict. -/
theorem C36_no_false_clause {t : Search} (h : Reachable t)
    (hc : (searchPropagate t.s).2 = none) {c : List Nat}
    (hF : (searchPropagate t.s).1.formula c) : ∃ l ∈ c, (searchPropagate t.s).1.values l ≠ -1 := by
  obtain ⟨_, _, _, hb⟩ := h.between
  obtain ⟨_, _, _, hp⟩ := searchPropagate_ok hb.prop
  rw [hc] at hp
  obtain ⟨hP, hfull, _⟩ := hp
  generalize (searchPropagate t.s).1 = s at *
  have ht := hP.ok.inv.trail
  have hw := hP.watching
  rw [hfull] at hw
  have hdrop : ∀ x, x ∉ s.trail.drop s.trail.length := by simp
  apply Classical.byContradiction
  intro hne
  have hall : ∀ l ∈ c, s.values l = -1 := fun l hl => Classical.byContradiction fun h => hne ⟨l, hl, h⟩
  have sat : ∀ {w}, ¬ s.Satisfying c w := fun ⟨x, hx, hx1, _⟩ => by
    have := hall x hx; omega
  rcases hF with ⟨r, hr, rfl⟩ | ⟨a, b, hab, rfl⟩ | ⟨l, hl, _, rfl⟩
  · have hsz := hP.ok.inv.clause.size r hr
    have hm : ∀ {w}, (s.clause r).Watched w → w ∈ (s.clause r).lits := fun h => by
      rcases h with h | h <;> exact List.mem_of_getElem? h
    have h0 : (s.clause r).Watched ((s.clause r).lits[0]'(by omega)) := .inl (List.getElem?_eq_getElem _)
    rcases hw.large r hr _ h0 (hall _ (hm h0)) (hdrop _) with e | ⟨_, _, v, hv, _, e, _⟩
    · exact sat e
    · exact sat (e (hall _ (hm hv)) (hdrop _))
  · obtain ⟨x, hx, hx1, _⟩ := hw.binary a b hab (hall a (by simp)) (hdrop _)
    have := hall x (by rw [List.mem_singleton.1 hx]; simp)
    omega
  · have := hall l (by simp)
    omega

/-- C36: if in addition all variables have a value then all clauses are satisfied. -/
theorem C36_all_assigned {t : Search} (h : Reachable t)
    (hc : (searchPropagate t.s).2 = none) (h0 : (searchPropagate t.s).1.unassigned = 0)
    {c : List Nat} (hF : (searchPropagate t.s).1.formula c) :
    ∃ l ∈ c, (searchPropagate t.s).1.values l = 1 := by
  obtain ⟨l, hl, h1⟩ := C36_no_false_clause h hc hF
  refine ⟨l, hl, ?_⟩
  obtain ⟨_, _, _, hb⟩ := h.between
  obtain ⟨_, _, _, hp⟩ := searchPropagate_ok hb.prop
  rw [hc] at hp
  obtain ⟨hP, _, _⟩ := hp
  generalize (searchPropagate t.s).1 = s at *
  have ht := hP.ok.inv.trail
  rcases ht.dom l with d | hv | d
  · exact d
  · exfalso
    have hfree : s.free = [] := List.eq_nil_of_length_eq_zero (by rw [← ht.count, h0])
    have hvalid : s.Valid l := by
      rcases hF with ⟨r, hr, rfl⟩ | ⟨a, b, hab, rfl⟩ | ⟨m, hm, _, rfl⟩
      · exact hP.ok.inv.clause.valid r hr l hl
      · have := hP.ok.inv.clause.bin a b hab
        rcases List.mem_cons.1 hl with e | e
        · rw [e]; exact this.2.2.2.1
        · rw [List.mem_singleton.1 e]; exact this.2.2.2.2
      · rw [List.mem_singleton.1 hl]; exact ht.valid m (by omega)
    have : l / 2 ∈ s.free := (ht.free_iff l).2 ⟨hvalid, hv⟩
    rw [hfree] at this
    cases this
  · exact absurd d h1

/-- C37 (partial: availability for decisions is `C37_available_again_partial`).
Backtracking to a lower level unassigns exactly the literals of higher levels and keeps
the order of the others on the trail, their levels, reasons and trail positions, the first
frames, all clauses and watches; the counter of unassigned variables and the propagation
position are right. -/
theorem C37_backtrack_partial {s : Solver} (h : Seen s) {n : Nat} (hn : n < s.level) :
    (∀ l, (s.backtrack n).values l = if n < s.lev l then 0 else s.values l) ∧
    (s.backtrack n).trail = s.trail.filter (fun l => s.lev l ≤ n) ∧
    (∀ l, (s.backtrack n).lev l = s.lev l ∧
      ((s.backtrack n).assigned (l / 2)).reason = (s.assigned (l / 2)).reason) ∧
    (∀ l ∈ (s.backtrack n).trail, (s.backtrack n).trail[(s.backtrack n).pos l]? = some l) ∧
    (s.backtrack n).frames = s.frames.take n ∧ (s.backtrack n).level = n ∧
    (s.backtrack n).unassigned = s.unassigned + (s.trail.filter fun l => n < s.lev l).length ∧
    (∃ f, s.frames[n]? = some f ∧ (s.backtrack n).propagate = f.trail ∧
      s.trail.take f.trail = (s.backtrack n).trail.take f.trail) ∧
    (s.backtrack n).arena = s.arena ∧ (s.backtrack n).watches = s.watches ∧
    (s.backtrack n).proof = s.proof := by
  have ht := h.trail
  obtain ⟨f, hb⟩ := ht.backtracked hn
  have hB := hb.back
  refine ⟨fun l => ?_, hb.trail, fun l => ⟨hb.lev l, hb.reason _⟩, hb.pos, hb.frames, hb.level,
    hb.unassigned, ⟨f, hb.frame, hb.propagate, ?_⟩, hB.arena, hB.watches, hB.proof⟩
  · rw [hb.values]
    by_cases h0 : s.values l = 0
    · simp [h0]
    · simp [h0]
  · have hlen : f.trail ≤ s.trail.length := by
      have := (ht.decision n f hb.frame).1
      exact Nat.le_of_lt (List.getElem?_eq_some_iff.1 this).1
    rw [hb.trail]
    conv => rhs; rw [← List.take_append_drop f.trail s.trail, List.filter_append, ← hb.take]
    rw [List.take_append_of_le_length (by rw [List.length_take]; omega), List.take_take,
      Nat.min_self]

/-- Chronological backtracking leaves trails on which lower levels follow higher ones; a
plain example: after two decisions backtracking to level one. -/
example : ∃ t, Reachable t ∧ (t.s.level == 2 && (t.s.trail == [0, 2, 4] &&
    ((t.s.backtrack 1).trail == [0, 2] && (t.s.backtrack 1).values 4 == 0))) = true :=
  exReach_sound (es := [-1, 2, 0, 3, 4, 5, 0]) (os := List.replicate 2 (exDecide [0, 1, 2, 3, 4] true))
    (by decide)

/-- C38: the clause learned from a conflict.  `Analysing s c`: the analysis looks at the
conflict `c`; `s'` is the state after backtracking to the conflict level; `u` is the
unique implication point found and `t` the literals collected. -/
theorem C38_learned_clause {s s' : Solver} {c : Conflict} {lv u : Nat} {t : Analysis}
    (h : Analysing s c) (hm : oneLiteral s c = (s', .many lv))
    (hd : deduceLoop s' s'.trail.reverse
      ((s'.conflictLits c).foldl (analyzeLiteral s') ⟨[], [], [], 0, 0, 0⟩) 0 = .uip u t) :
    -- it follows from the clauses, even by unit propagation
    RUP s'.formula (learnedClause s' u t) ∧ Entails s'.formula (learnedClause s' u t) ∧
    -- it is false
    (∀ l ∈ learnedClause s' u t, s'.values l = -1) ∧
    -- its first literal is the only one on the conflict level
    s'.level = lv ∧ (learnedClause s' u t).filter (fun l => s'.lev l = lv) = [neg u] ∧
    (learnedClause s' u t).head? = some (neg u) ∧
    -- after backtracking to any level below the conflict level and not below the
    -- others it is unit
    ∀ n < lv, (∀ l ∈ (learnedClause s' u t).tail, s'.lev l ≤ n) →
      (s'.backtrack n).values (neg u) = 0 ∧
      ∀ l ∈ (learnedClause s' u t).tail, (s'.backtrack n).values l = -1 := by
  obtain ⟨_, _, _, hA⟩ := h.ainv
  have h1 := oneLiteral_ok hA
  rw [hm] at h1
  obtain ⟨hM, hl, _, _⟩ := h1
  simp only at hM hl
  obtain ⟨k, hok, hds⟩ := deduce_spec hM
  rw [hd] at hds
  obtain ⟨tail, h2, h3, h4⟩ := learnedClause_spec hok.inv hds
  have ht := hok.inv.trail
  have hu1 := ht.tval _ hds.mem
  have hnu : s'.values (neg u) = -1 := by rw [ht.anti, hu1]
  rw [h2]
  have hr : RUP s'.formula (neg u :: tail) := .inl h4
  refine ⟨hr, hr.entails, ?_, hl, ?_, rfl, ?_⟩
  · intro l hl
    rcases List.mem_cons.1 hl with rfl | hl
    · exact hnu
    · exact h3.false l hl
  · rw [List.filter_cons, if_pos (by simp [lev_neg, hds.lev, hl])]
    have : tail.filter (fun l => s'.lev l = lv) = [] := by
      rw [List.filter_eq_nil_iff]
      intro x hx
      have := (h3.lev x hx).2
      simp; omega
    rw [this]
  · intro n hn hle
    obtain ⟨f, hb⟩ := ht.backtracked (m := n) (by omega)
    constructor
    · rw [hb.values, if_pos]
      exact ⟨by rw [hnu]; decide, by rw [lev_neg, hds.lev]; omega⟩
    · intro l hl
      have := hle l hl
      rw [hb.values, if_neg (by omega)]
      exact h3.false l hl

/-- C38: the level computed from the highest level `jump` of the other literals is such a
level. -/
theorem C38_new_level (s : Solver) {jump : Nat} (h : jump < s.level) :
    jump ≤ s.determineNewLevel jump ∧ s.determineNewLevel jump < s.level := by
  unfold Solver.determineNewLevel
  simp only
  repeat' split
  all_goals omega

/-- C39: minimisation and shrinking, for every setting of the options and every implication
graph that occurs: the clause still starts with the negation of the unique implication
point, its other literals are false on lower non-root levels without duplicates, and it
still follows by unit propagation. -/
theorem C39_minimized_and_shrunken {s s' : Solver} {c : Conflict} {lv u : Nat} {t : Analysis}
    (h : Analysing s c) (hm : oneLiteral s c = (s', .many lv))
    (hd : deduceLoop s' s'.trail.reverse
      ((s'.conflictLits c).foldl (analyzeLiteral s') ⟨[], [], [], 0, 0, 0⟩) 0 = .uip u t)
    (options : Options) :
    ∃ tail, learnedClause { s' with options := options } u t = neg u :: tail ∧ tail.Nodup ∧
      (∀ l ∈ tail, s'.values l = -1 ∧ 0 < s'.lev l ∧ s'.lev l < s'.level) ∧
      RUP s'.formula (neg u :: tail) ∧ Entails s'.formula (neg u :: tail) := by
  obtain ⟨_, _, _, hA⟩ := h.ainv
  have h1 := oneLiteral_ok hA
  rw [hm] at h1
  obtain ⟨hM, hl, _, _⟩ := h1
  simp only at hM hl
  obtain ⟨k, hok, hds⟩ := deduce_spec hM
  rw [hd] at hds
  have hinv : InvAt { s' with options := options } s'.level k := by
    obtain ⟨i1, i2, i3, i4⟩ := hok.inv
    exact ⟨⟨i1.1, i1.2, i1.3, i1.4, i1.5, i1.6, i1.7, i1.8, i1.9, i1.10, i1.11, i1.12, i1.13⟩,
      ⟨i2.1, i2.2, i2.3, i2.4, i2.5⟩, ⟨i3.1, i3.2, i3.3, i3.4, i3.5, i3.6, i3.7⟩,
      ⟨i4.1, i4.2, i4.3, i4.4⟩⟩
  have huip : Uip { s' with options := options } k u t :=
    ⟨hds.1, hds.2, hds.3, hds.4, hds.5, hds.6, hds.7, hds.8⟩
  obtain ⟨tail, h2, h3, h4⟩ := learnedClause_spec (s := { s' with options := options }) hinv huip
  have hr : RUP s'.formula (neg u :: tail) := .inl h4
  exact ⟨tail, h2, h3.nodup, fun l hl => ⟨h3.false l hl, h3.lev l hl⟩, hr, hr.entails⟩

/-- C40 (partial: marking only, see `C40_collect_clauses` etc. for collection).  Reduction marks as
garbage only clauses that are redundant and not the reason of a literal on the trail; all
other clauses, the assignment, reasons and watches stay as they are. -/
theorem C40_reduce_partial (refs : List Nat) (s : Solver) :
    (∀ r, ((markLessUseful s refs).clause r).garbage = true → (s.clause r).garbage = false →
      (s.clause r).redundant = true ∧
        ∀ l ∈ s.trail, (s.assigned (l / 2)).reason ≠ .large r) ∧
    (∀ r, (markLessUseful s refs).Live r → (markLessUseful s refs).clause r = s.clause r) ∧
    (markLessUseful s refs).values = s.values ∧ (markLessUseful s refs).assigned = s.assigned ∧
    (markLessUseful s refs).trail = s.trail ∧ (markLessUseful s refs).watches = s.watches := by
  induction refs generalizing s with
  | nil => exact ⟨fun r h1 h2 => absurd (h2 ▸ h1 : (false : Bool) = true) (by decide),
      fun r _ => rfl, rfl, rfl, rfl, rfl⟩
  | cons x refs ih =>
    unfold markLessUseful
    rw [List.foldl_cons]
    split
    · rename_i hx
      obtain ⟨i1, i2, i3, i4, i5, i6⟩ := ih (s.markGarbage x)
      unfold Solver.reducible at hx
      rw [Bool.and_eq_true, Bool.and_eq_true, List.all_eq_true] at hx
      obtain ⟨⟨h1, h2⟩, h3⟩ := hx
      have hcl : ∀ r, (s.markGarbage x).clause r = if r = x then
          { s.clause x with garbage := true } else s.clause r := by
        exact markGarbage_clause (by simpa [Solver.Live] using h2)
      refine ⟨fun r hg hl => ?_, fun r hl => ?_, i3, i4, i5, i6⟩
      · by_cases hr : r = x
        · subst hr
          exact ⟨h1, fun l hl => by simpa using h3 l hl⟩
        · have := i1 r hg (by rw [hcl, if_neg hr]; exact hl)
          rw [hcl, if_neg hr] at this
          exact this
      · have := i2 r hl
        by_cases hr : r = x
        · rw [hcl, if_pos hr] at this
          have hl' : ((markLessUseful (s.markGarbage x) refs).clause r).garbage = false := hl
          rw [this] at hl'
          cases hl'
        · rw [hcl, if_neg hr] at this
          exact this
    · exact ih s

/-- C40: in reachable states the models of the irredundant clauses are unaffected, and the
solver stays in a state in which everything above holds (`Inv`). -/
theorem C40_models_partial {t : Search} (h : Reachable t) (hc : (searchPropagate t.s).2 = none)
    (hn : ¬ ((searchPropagate t.s).1.unflushed ≠ 0 ∧ (searchPropagate t.s).1.rootConflict = true))
    (refs : List Nat) (start : Option Nat) : Inv (reduce (searchPropagate t.s).1 refs start).1 ∧
      (reduce (searchPropagate t.s).1 refs start).2 = 0 := by
  obtain ⟨_, _, _, hb⟩ := h.between
  obtain ⟨_, _, _, hp⟩ := searchPropagate_ok hb.prop
  rw [hc] at hp
  obtain ⟨hP, hfull, hi⟩ := hp
  have := reduce_ok hP hfull (searchPropagate_flushed hc) hn (hi.trans hb.consistent) refs start
  exact ⟨this.1.ok.inv, this.2.2.1⟩

/-- C41 (partial: the order in which the heuristic looks at variables is arbitrary here).
If some variable has no value then an unassigned active variable is picked, it gets a
value according to the phase and the level increases by one. -/
theorem C41_decide_partial {t : Search} (h : Reachable t) (hc : (searchPropagate t.s).2 = none)
    (hu : (searchPropagate t.s).1.unassigned ≠ 0) {o : Oracle}
    (ho : o.Fair (searchPropagate t.s).1) :
    ∃ s' v, (searchPropagate t.s).1.decide o.order o.phase = some s' ∧
      v < (searchPropagate t.s).1.vars ∧ (searchPropagate t.s).1.removed v = false ∧
      (searchPropagate t.s).1.values (2 * v) = 0 ∧
      s'.values (if o.phase then 2 * v else 2 * v + 1) = 1 ∧
      s'.level = (searchPropagate t.s).1.level + 1 := by
  obtain ⟨_, _, _, hb⟩ := h.between
  obtain ⟨_, _, _, hp⟩ := searchPropagate_ok hb.prop
  rw [hc] at hp
  obtain ⟨hP, hfull, hi⟩ := hp
  obtain ⟨s', v, lit, h1, _, h2, h3, h4, h5, _, _, _, _, _, _, h6, _⟩ := decide_ok hP hfull hu ho
  obtain ⟨v1, v2⟩ := h3
  rw [show 2 * v / 2 = v by omega] at v1 v2
  refine ⟨s', v, h1, v1, v2, h2, ?_, h6⟩
  rw [← h4, h5, if_neg, if_pos rfl]
  exact fun e => neg_ne lit e.symm

/-- C59: in every state that occurs, also during conflict analysis: values are -1, 0 or 1
and opposite for opposite literals; the trail has no duplicates, all its literals are true,
know their position, and every true literal not on it is a root unit; levels do not exceed
the current one; there is one frame per level, its decision is on the trail at the recorded
place, has that level, and no literal before it has a higher level. -/
theorem C59_trail_consistent {s : Solver} (h : Seen s) :
    (∀ l, s.values l = 1 ∨ s.values l = 0 ∨ s.values l = -1) ∧
    (∀ l, s.values (neg l) = - s.values l) ∧
    s.trail.Nodup ∧ (∀ l ∈ s.trail, s.values l = 1) ∧
    (∀ p l, s.trail[p]? = some l → (s.assigned (l / 2)).trail = p) ∧
    (∀ l, s.values l = 1 → l ∈ s.trail ∨ s.lev l = 0) ∧
    (∀ l, s.values l ≠ 0 → s.lev l ≤ s.level) ∧
    s.frames.length = s.level ∧
    (∀ j f, s.frames[j]? = some f → s.trail[f.trail]? = some f.decision ∧
      s.lev f.decision = j + 1 ∧ ∀ l ∈ s.trail.take f.trail, s.lev l ≤ j) := by
  have ht := h.trail
  refine ⟨ht.dom, ht.anti, ht.nodup, ht.tval, ht.tpos, fun l hl => ?_, fun l hl => ?_, ht.frames,
    fun j f hf => ⟨(ht.decision j f hf).1, (ht.decision j f hf).2, ht.before j f hf⟩⟩
  · by_cases hm : l ∈ s.trail
    · exact .inl hm
    · exact .inr (ht.flushed l hl hm)
  · rcases ht.dom l with d | d | d
    · exact ht.levle l d
    · exact absurd d hl
    · have := ht.levle (neg l) (ht.neg_pos.2 d)
      rwa [lev_neg] at this

/-- A conflict at level two: analysis learns a clause. -/
example : ∃ t, Reachable t ∧ (t.s.level == 2 && (match searchPropagate t.s with
    | (s, some c) =>
      (match oneLiteral s c with
       | (s', .many 2) =>
         (match deduceLoop s' s'.trail.reverse
            ((s'.conflictLits c).foldl (analyzeLiteral s') ⟨[], [], [], 0, 0, 0⟩) 0 with
          | .uip u t => learnedClause s' u t == [1, 7]
          | _ => false)
       | _ => false)
    | _ => false)) = true :=
  exReach_sound (es := [-2, 3, 0, -2, 4, 0, -3, -4, -1, 0])
    (os := List.replicate 2 (exDecide [3, 0, 1, 2] true)) (by decide)

end Verif.Props
