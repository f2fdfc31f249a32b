import Verif.Proofs.Core.Backtrack

/-! # Backtracking after a conflict, and the result of propagation -/

namespace Verif.Core

open Verif.Spec

/-- Effect of one or more calls of backtracking, ending at level `n`. -/
structure Back (s : Solver) (n : Nat) (s' : Solver) : Prop where
  trail : s'.trail = s.trail.filter (fun l => s.lev l ≤ n)
  values : ∀ x, s'.values x = if s.values x ≠ 0 ∧ n < s.lev x then 0 else s.values x
  lev : ∀ x, s'.lev x = s.lev x
  reason : ∀ v, (s'.assigned v).reason = (s.assigned v).reason
  level : s'.level = n
  vars : s'.vars = s.vars
  removed : s'.removed = s.removed
  watches : s'.watches = s.watches
  arena : s'.arena = s.arena
  inconsistent : s'.inconsistent = s.inconsistent
  iterating : s'.iterating = s.iterating
  lastLearned : s'.lastLearned = s.lastLearned
  proof : s'.proof = s.proof
  options : s'.options = s.options
  conflicts : s'.conflicts = s.conflicts
  decisions : s'.decisions = s.decisions
  formula : s'.formula = s.formula
  loose : s'.loose = s.loose

theorem Backtracked.back {s s' : Solver} {m : Nat} {f : Frame} (hb : Backtracked s m f s') :
    Back s m s' :=
  ⟨hb.trail, hb.values, hb.lev, hb.reason, hb.level, hb.vars, hb.removed, hb.watches, hb.arena,
    hb.inconsistent, hb.iterating, hb.lastLearned, hb.proof, hb.options, hb.conflicts,
    hb.decisions, hb.formula, by have := congrArg Solver.loose hb.same; exact this⟩

theorem Back.trans {s t u : Solver} {m n : Nat} (h : Back s m t) (h' : Back t n u)
    (hnm : n ≤ m) : Back s n u := by
  refine ⟨?_, ?_, fun x => (h'.lev x).trans (h.lev x), fun v => (h'.reason v).trans (h.reason v),
    h'.level, h'.vars.trans h.vars, h'.removed.trans h.removed, h'.watches.trans h.watches,
    h'.arena.trans h.arena, h'.inconsistent.trans h.inconsistent, h'.iterating.trans h.iterating,
    h'.lastLearned.trans h.lastLearned, h'.proof.trans h.proof, h'.options.trans h.options,
    h'.conflicts.trans h.conflicts, h'.decisions.trans h.decisions, h'.formula.trans h.formula,
    h'.loose.trans h.loose⟩
  · rw [h'.trail, h.trail, List.filter_filter]
    apply List.filter_congr
    intro l _
    rw [h.lev]
    by_cases hl : s.lev l ≤ n
    · have : s.lev l ≤ m := by omega
      simp [hl, this]
    · simp [hl]
  · intro x
    rw [h'.values, h.values, h.lev]
    by_cases h1 : s.values x ≠ 0 ∧ m < s.lev x
    · rw [if_pos h1]
      have : s.values x ≠ 0 ∧ n < s.lev x := ⟨h1.1, by omega⟩
      rw [if_pos this]; simp
    · rw [if_neg h1]

namespace Back

variable {s s' : Solver} {n : Nat} (hb : Back s n s')
include hb

theorem clause (r : Nat) : s'.clause r = s.clause r := by unfold Solver.clause; rw [hb.arena]
theorem live (r : Nat) : s'.Live r ↔ s.Live r := by unfold Solver.Live; rw [hb.clause]
theorem valid (l : Nat) : s'.Valid l ↔ s.Valid l := by
  unfold Solver.Valid; rw [hb.vars, hb.removed]
theorem bins : s'.bins = s.bins := by unfold Solver.bins; rw [hb.watches]
theorem keep {x : Nat} (h : s.lev x ≤ n) : s'.values x = s.values x := by
  rw [hb.values, if_neg (by omega)]
theorem drop {x : Nat} (h : n < s.lev x) : s'.values x = 0 := by
  rw [hb.values]
  by_cases h0 : s.values x = 0
  · simp [h0]
  · rw [if_pos ⟨h0, h⟩]
theorem nonzero {x : Nat} (h : s'.values x ≠ 0) : s'.values x = s.values x ∧ s.lev x ≤ n := by
  by_cases hl : s.lev x ≤ n
  · exact ⟨hb.keep hl, hl⟩
  · exact absurd (hb.drop (by omega)) h
theorem conflictLits (c : Conflict) : s'.conflictLits c = s.conflictLits c := by
  cases c with
  | binary a b => rfl
  | large r => show (s'.clause r).lits = (s.clause r).lits; rw [hb.clause]

theorem conflictOk {c : Conflict} (h : ConflictOk s c)
    (hl : ∀ l ∈ s.conflictLits c, s.lev l ≤ n) : ConflictOk s' c := by
  cases c with
  | binary a b =>
    obtain ⟨h1, h2, h3⟩ := h
    exact ⟨by rw [hb.watches]; exact h1, by rw [hb.keep (hl a (by simp [Solver.conflictLits]))]; exact h2,
      by rw [hb.keep (hl b (by simp [Solver.conflictLits]))]; exact h3⟩
  | large r =>
    obtain ⟨h1, h2⟩ := h
    refine ⟨(hb.live r).2 h1, ?_⟩
    rw [hb.clause]
    intro l hl'
    rw [hb.keep (hl l hl')]; exact h2 l hl'

end Back

/-- State of the watch invariant between steps, up to exempted clauses. -/
structure WatchedX (s : Solver) (exL exB : Nat → Nat → Prop) : Prop where
  watching : WatchingX s s.propagate exL exB
  frames : ∀ f ∈ s.frames, f.trail ≤ s.propagate
  le : s.propagate ≤ s.trail.length

theorem backtrack_ok {orig : Base} {G : Assignment → Prop} {s : Solver} {L k kk n : Nat}
    {exL exB : Nat → Nat → Prop}
    (h : OkAt orig G L k s) (hw : WatchingX s kk exL exB)
    (hf : ∀ f ∈ s.frames, f.trail ≤ kk) (hn : n < s.level) (hL : n < L) :
    Back s n (s.backtrack n) ∧ Ok orig G (s.backtrack n) ∧ WatchedX (s.backtrack n) exL exB := by
  obtain ⟨f, hb⟩ := h.inv.trail.backtracked hn
  refine ⟨hb.back, hb.ok h hn hL, ?_, hb.framesLe h.inv.trail, ?_⟩
  · rw [hb.propagate]
    exact hb.watchingX h.inv.trail hw (hf f (List.mem_iff_getElem?.2 ⟨n, hb.frame⟩))
  · rw [hb.propagate]; exact hb.length h.inv.trail

theorem backtrackAfterConflict_ok {orig : Base} {G : Assignment → Prop} {s : Solver}
    {k kk n : Nat} {exL exB : Nat → Nat → Prop}
    (h : OkAt orig G s.level k s) (hw : WatchingX s kk exL exB)
    (hf : ∀ f ∈ s.frames, f.trail ≤ kk) (hn : n < s.level) :
    Back s n (s.backtrackAfterConflict n) ∧ Ok orig G (s.backtrackAfterConflict n) ∧
      WatchedX (s.backtrackAfterConflict n) exL exB := by
  obtain ⟨h1, h2, h3⟩ := backtrack_ok h hw hf (n := s.level - 1) (by omega) (by omega)
  unfold Solver.backtrackAfterConflict
  rw [if_pos (by omega)]
  simp only
  generalize s.backtrack (s.level - 1) = t at h1 h2 h3
  by_cases e : n = s.level - 1
  · have : t.backtrack n = t := by
      unfold Solver.backtrack; rw [if_pos (by rw [h1.level]; omega)]
    rw [this, e]; exact ⟨h1, h2, h3⟩
  · obtain ⟨g1, g2, g3⟩ := backtrack_ok (h2.at t.level k (Nat.le_succ _)) h3.watching h3.frames
      (n := n) (by rw [h1.level]; omega) (by rw [h1.level]; omega)
    exact ⟨h1.trans g1 (by omega), g2, g3⟩

theorem Ok.propInv {orig : Base} {G : Assignment → Prop} {s : Solver} (h : Ok orig G s)
    {exL exB : Nat → Nat → Prop} (hw : WatchedX s exL exB)
    (he : ∀ r w, exL r w → s.Live r → (s.clause r).Watched w → s.values w = -1 →
      s.Satisfying (s.clause r).lits w)
    (hb : ∀ w o, exB w o → Watch.binary o ∈ s.watches w → s.values w = -1 →
      s.Satisfying [o] w) : PropInv orig G s :=
  ⟨h, hw.watching.watching (fun r w h1 h2 h3 h4 _ => he r w h1 h2 h3 h4)
    (fun w o h1 h2 h3 _ => hb w o h1 h2 h3), hw.frames, hw.le⟩

theorem PropInv.watchedX {orig : Base} {G : Assignment → Prop} {s : Solver}
    (h : PropInv orig G s) (exL exB : Nat → Nat → Prop) : WatchedX s exL exB :=
  ⟨h.watching.x exL exB, h.frames, h.le⟩

/-- A literal watched in a binary clause or in a large clause assigned as forced
literal satisfies the clause on the level of `w`. -/
theorem satisfying_of_level {s : Solver} (h : TrailInv s) {c : List Nat} {w t : Nat} (ht : t ∈ c)
    (hv : s.values t = 1) (hw : s.values w = -1) (hl : s.lev t ≤ s.lev w) : s.Satisfying c w := by
  refine ⟨t, ht, hv, fun j f hj hd => ?_⟩
  have := h.lev_le_of_not_mem_drop hj (h.neg_pos.2 hw) hd
  rw [lev_neg] at this
  omega

theorem WatchingX.assign {s : Solver} {k : Nat} {exL exB : Nat → Nat → Prop}
    (h : WatchingX s k exL exB) (ht : TrailInv s) {level lit : Nat} {reason : Reason}
    (h0 : s.values lit = 0) (hk : k ≤ s.trail.length) :
    WatchingX (s.assign level lit reason) k exL exB := by
  obtain ⟨r', _, _, he⟩ := assign_eq s level lit reason
  have key : WatchingX (s.assignCore level lit r') k exL exB := by
    constructor
    · intro r w he hr hw hv hd
      obtain ⟨h1, h2⟩ := assign_processed ht h0 hk hv hd
      exact (h.large r w he hr hw h1 h2).imp (Satisfying.assignCore ht h0) (Excused.assignCore ht h0 hk h1)
    · intro w o he hw hv hd
      obtain ⟨h1, h2⟩ := assign_processed ht h0 hk hv hd
      exact Satisfying.assignCore ht h0 (h.binary w o he hw h1 h2)
  rcases he with e | e
  · rw [e]; exact key
  · rw [e]; exact ⟨key.1, key.2⟩

theorem assign_fields (s : Solver) (level lit : Nat) (reason : Reason) :
    (s.assign level lit reason).propagate = s.propagate ∧
    (s.assign level lit reason).frames = s.frames ∧
    (s.assign level lit reason).trail = s.trail ++ [lit] ∧
    (s.assign level lit reason).arena = s.arena ∧
    (s.assign level lit reason).watches = s.watches ∧
    (s.assign level lit reason).vars = s.vars ∧
    (s.assign level lit reason).level = s.level ∧
    (s.assign level lit reason).options = s.options ∧
    (s.assign level lit reason).removed = s.removed ∧
    (s.assign level lit reason).lastLearned = s.lastLearned ∧
    (s.assign level lit reason).inconsistent = s.inconsistent ∧
    (s.assign level lit reason).conflicts = s.conflicts ∧
    (s.assign level lit reason).decisions = s.decisions ∧
    (s.assign level lit reason).loose = s.loose := by
  obtain ⟨r', _, _, e | e⟩ := assign_eq s level lit reason <;> rw [e] <;>
    exact ⟨rfl, rfl, rfl, rfl, rfl, rfl, rfl, rfl, rfl, rfl, rfl, rfl, rfl, rfl⟩

theorem assign_values (s : Solver) (level lit : Nat) (reason : Reason) (x : Nat) :
    (s.assign level lit reason).values x =
      if x = neg lit then -1 else if x = lit then 1 else s.values x := by
  obtain ⟨r', _, _, e | e⟩ := assign_eq s level lit reason <;> rw [e] <;> rfl

theorem assign_lev (s : Solver) (level lit : Nat) (reason : Reason) (x : Nat) :
    (s.assign level lit reason).lev x = if x / 2 = lit / 2 then level else s.lev x := by
  obtain ⟨r', _, _, e | e⟩ := assign_eq s level lit reason <;> rw [e] <;> exact assignCore_lev x

theorem WatchedX.assign {s : Solver} {exL exB : Nat → Nat → Prop}
    (h : WatchedX s exL exB) (ht : TrailInv s) {level lit : Nat} {reason : Reason}
    (h0 : s.values lit = 0) : WatchedX (s.assign level lit reason) exL exB := by
  have hf := assign_fields s level lit reason
  refine ⟨?_, ?_, ?_⟩
  · rw [hf.1]; exact h.watching.assign ht h0 h.le
  · rw [hf.1, hf.2.1]; exact h.frames
  · rw [hf.1, hf.2.2.1, List.length_append]; have := h.le; omega

/-! ## Search propagation -/

/-- Literals of a conflict are false, and the conflict is a clause of the formula. -/
theorem ConflictOk.false {s : Solver} {c : Conflict} (h : ConflictOk s c) :
    ∀ l ∈ s.conflictLits c, s.values l = -1 := by
  cases c with
  | binary a b =>
    intro l hl
    simp only [Solver.conflictLits, List.mem_cons, List.not_mem_nil, or_false] at hl
    rcases hl with rfl | rfl
    · exact h.2.1
    · exact h.2.2
  | large r => exact h.2

theorem ConflictOk.formula {s : Solver} {c : Conflict} (h : ConflictOk s c) :
    s.formula (s.conflictLits c) := by
  cases c with
  | binary a b => exact formula_binary h.1
  | large r => exact formula_large h.1

/-- A conflict whose literals are all false at level zero refutes the formula. -/
theorem ConflictOk.rup_nil {s : Solver} (ht : TrailInv s) {c : Conflict} (h : ConflictOk s c)
    (h0 : ∀ l ∈ s.conflictLits c, s.lev l = 0) : RUP s.formula [] := by
  refine .inl ⟨_, h.formula, fun m hm => ?_⟩
  exact UP.of_unit (formula_unit (ht.neg_pos.2 (h.false m hm)) (by rw [lev_neg]; exact h0 m hm))

theorem Ok.inconsistent {orig : Base} {G : Assignment → Prop} {s : Solver} {L k : Nat}
    (h : OkAt orig G L k s) (hr : RUP s.formula []) :
    OkAt orig G L k ({ s with inconsistent := true }.emit (.add [])) := by
  obtain ⟨⟨h1, h2, h3, h4⟩, hp, h7⟩ := h
  obtain ⟨db, hr1, hc⟩ := hp.emit_add hr (by simp)
  have hc := hc.cons []
  exact ⟨⟨⟨h1.1, h1.2, h1.3, h1.4, h1.5, h1.6, h1.7, h1.8, h1.9, h1.10, h1.11, h1.12, h1.13⟩,
    ⟨h2.1, h2.2, h2.3, h2.4, h2.5⟩, ⟨h3.1, h3.2, h3.3, h3.4, h3.5, h3.6, h3.7⟩,
    ⟨h4.1, h4.2, h4.3, h4.4⟩⟩, ⟨[] :: db, hr1, ⟨hc.1, hc.2, hc.3, fun _ => by simp⟩⟩, h7⟩

theorem Ok.flushTrail {orig : Base} {G : Assignment → Prop} {s : Solver}
    (h : Ok orig G s) (h0 : s.level = 0) : Ok orig G s.flushTrail := by
  obtain ⟨⟨h1, h2, h3, h4⟩, ⟨db, hr, hc⟩, h7⟩ := h
  have hf : s.frames = [] := List.eq_nil_of_length_eq_zero (by rw [h1.frames, h0])
  have hlev : ∀ l, s.values l = 1 → s.lev l = 0 := fun l hl => by
    have := h1.levle l hl; omega
  refine ⟨⟨⟨h1.1, h1.2, h1.3, h1.4, ?_, ?_, ?_, ?_, h1.9, h1.10, ?_, ?_, rfl⟩,
    ⟨h2.1, h2.2, ?_, ?_, ?_⟩, ⟨h3.1, h3.2, h3.3, h3.4, h3.5, h3.6, h3.7⟩,
    ⟨h4.1, h4.2, h4.3, h4.4⟩⟩, ⟨db, hr, ⟨hc.1, hc.2, hc.3, hc.4⟩⟩, h7⟩
  · exact List.nodup_nil
  · intro l hl; cases hl
  · intro p l hl; simp [Solver.flushTrail] at hl
  · intro l hl _; exact hlev l hl
  · intro j f hj
    have hj : s.frames[j]? = some f := hj
    rw [hf] at hj; simp at hj
  · intro j f hj
    have hj : s.frames[j]? = some f := hj
    rw [hf] at hj; simp at hj
  · intro l hl hre
    have := h2.root l hl (hlev l hl)
    have hre : (s.assigned (l / 2)).reason = .decision := hre
    rw [this] at hre; cases hre
  · intro l o hl hre
    have := h2.root l hl (hlev l hl)
    have hre : (s.assigned (l / 2)).reason = .binary o := hre
    rw [this] at hre; cases hre
  · intro l r hl hre
    have := h2.root l hl (hlev l hl)
    have hre : (s.assigned (l / 2)).reason = .large r := hre
    rw [this] at hre; cases hre

theorem Watching.flushTrail {s : Solver} (h : Watching s s.trail.length) (ht : TrailInv s)
    (h0 : s.level = 0) (hf : s.frames = []) : Watching s.flushTrail 0 := by
  have hd : s.trail.drop s.trail.length = [] := by simp
  have key : ∀ c w, s.Satisfying c w → s.flushTrail.Satisfying c w := by
    rintro c w ⟨t, ht, hv, _⟩
    refine ⟨t, ht, hv, fun j f hj => ?_⟩
    have hj : s.frames[j]? = some f := hj
    rw [hf] at hj; simp at hj
  exact ⟨fun r hr w hw hv _ => (h.large r hr w hw hv (by rw [hd]; simp)).imp (key _ _)
      fun ⟨_, h2, _⟩ => absurd (by
        have := ht.levle (neg w) (ht.neg_pos.2 hv)
        rw [lev_neg, h0] at this
        exact Nat.le_zero.1 this) h2,
    fun w o hw hv _ => key _ _ (h.binary w o hw hv (by rw [hd]; simp))⟩

/-- What search does not change during propagation. -/
structure Same (s s' : Solver) : Prop where
  vars : s'.vars = s.vars
  removed : s'.removed = s.removed
  options : s'.options = s.options
  decisions : s'.decisions = s.decisions
  loose : s'.loose = s.loose

theorem searchPropagate_ok {orig : Base} {G : Assignment → Prop} {s : Solver}
    (h : PropInv orig G s) :
    Same s (searchPropagate s).1 ∧ Ok orig G (searchPropagate s).1 ∧
    (searchPropagate s).1.level = s.level ∧
    match (searchPropagate s).2 with
    | none => PropInv orig G (searchPropagate s).1 ∧
        (searchPropagate s).1.propagate = (searchPropagate s).1.trail.length ∧
        (searchPropagate s).1.inconsistent = s.inconsistent
    | some c => if s.level = 0 then (searchPropagate s).1.inconsistent = true else
        (searchPropagate s).1.inconsistent = s.inconsistent ∧
        ConflictOk (searchPropagate s).1 c ∧ ∃ k, Watching (searchPropagate s).1 k ∧
          ∀ f ∈ (searchPropagate s).1.frames, f.trail ≤ k := by
  have hp := propagateLoop_ok (s.vars + 1) h (by omega)
  unfold searchPropagate
  cases hres : propagateLoop (s.vars + 1) s with
  | mk t c =>
    rw [hres] at hp
    simp only at hp ⊢
    obtain ⟨hfz, hok, hcf, hp⟩ := hp
    cases c with
    | none =>
      simp only at hp ⊢
      unfold updateConflictsAndTrail
      simp only
      by_cases hc : t.level = 0 ∧ t.unflushed ≠ 0
      · rw [if_pos hc]
        have hf : t.frames = [] :=
          List.eq_nil_of_length_eq_zero (by rw [hok.inv.trail.frames, hc.1])
        have ho := hok.flushTrail hc.1
        refine ⟨⟨hfz.vars, hfz.removed, hfz.options, hfz.decisions, hfz.loose⟩, ho, hfz.level, ?_, rfl, hfz.inconsistent⟩
        refine ⟨ho, hp.2.flushTrail hok.inv.trail hc.1 hf, ?_, Nat.le_refl _⟩
        intro f hf'
        have hf' : f ∈ t.frames := hf'
        rw [hf] at hf'; cases hf'
      · rw [if_neg hc]
        refine ⟨⟨hfz.vars, hfz.removed, hfz.options, hfz.decisions, hfz.loose⟩, hok, hfz.level, ?_, hp.1, hfz.inconsistent⟩
        refine ⟨hok, by rw [hp.1]; exact hp.2, ?_, by rw [hp.1]; omega⟩
        intro f hf
        obtain ⟨j, hj⟩ := List.mem_iff_getElem?.1 hf
        rw [hp.1]
        exact Nat.le_of_lt (hok.inv.trail.frame_lt hj)
    | some c =>
      simp only at hp ⊢
      unfold updateConflictsAndTrail
      simp only
      have hok' : Ok orig G { t with conflicts := t.conflicts + 1 } :=
        hok.misc t.propagate t.iterating _ t.decisions t.options
      by_cases hc : t.level = 0
      · rw [if_pos hc, if_pos (by rw [← hfz.level]; exact hc)]
        refine ⟨⟨hfz.vars, hfz.removed, hfz.options, hfz.decisions, hfz.loose⟩, ?_, hfz.level, rfl⟩
        refine OkAt.ok (Ok.inconsistent (hok'.at (t.level + 1) 0 (Nat.le_refl _)) ?_)
        exact ConflictOk.rup_nil hok'.inv.trail (c := c) (by
          cases c <;> exact hp.1) (by
          intro l hl
          have hl : l ∈ t.conflictLits c := by cases c <;> exact hl
          have := hok.inv.trail.levle (neg l) (hok.inv.trail.neg_pos.2 (hp.1.false l hl))
          rw [lev_neg] at this
          show t.lev l = 0
          omega)
      · rw [if_neg hc, if_neg (by rw [← hfz.level]; exact hc)]
        refine ⟨⟨hfz.vars, hfz.removed, hfz.options, hfz.decisions, hfz.loose⟩, hok', hfz.level, hfz.inconsistent,
          by cases c <;> exact hp.1, ?_⟩
        obtain ⟨k, h1, h2⟩ := hp.2
        exact ⟨k, ⟨h1.1, h1.2⟩, h2⟩

end Verif.Core
