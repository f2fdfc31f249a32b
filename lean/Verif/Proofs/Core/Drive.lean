import Verif.Proofs.Core.OneLiteral

/-! # Assigning the literal forced by a conflict or learned clause -/

namespace Verif.Core

open Verif.Spec

theorem WatchedX.dropLevel {s : Solver} {A P B Q : Nat → Nat → Prop}
    (h : WatchedX s (fun r w => A r w ∨ P r w) (fun w o => B w o ∨ Q w o))
    (hA : ∀ r w, A r w → s.values w ≠ -1) (hB : ∀ w o, B w o → s.values w ≠ -1) :
    WatchedX s P Q :=
  ⟨⟨fun r w hp hr hw hv hd => h.watching.large r w (fun hh => hh.elim (fun a => hA r w a hv) hp)
      hr hw hv hd,
    fun w o hp hw hv hd => h.watching.binary w o (fun hh => hh.elim (fun a => hB w o a hv) hp)
      hw hv hd⟩, h.frames, h.le⟩

theorem assignOk_large {orig : Base} {G : Assignment → Prop} {s : Solver}
    (hok : Ok orig G s) {r u : Nat} (hr : s.Live r) (hw : (s.clause r).Watched u)
    (h0 : s.values u = 0) (hfalse : ∀ m ∈ (s.clause r).lits, m ≠ u → s.values m = -1) :
    AssignOk s (s.assignmentLevel u (s.clause r).lits) u (.large r) := by
  have hmem : u ∈ (s.clause r).lits := by
    rcases hw with h | h <;> exact List.mem_iff_getElem?.2 ⟨_, h⟩
  refine ⟨h0, hok.inv.clause.valid r hr u hmem, ?_, hr, hw, ?_, ?_⟩
  · refine assignmentLevel_le _ _ _ fun m hm hne => ?_
    have := hok.inv.trail.levle (neg m) ((hok.inv.trail.neg_pos (l := m)).2 (hfalse m hm hne))
    rw [lev_neg] at this; exact this
  · intro m hm hne
    exact ⟨hfalse m hm hne, assignmentLevel_ge _ _ _ hm hne⟩
  · obtain ⟨m, hm, hne⟩ := exists_ne (hok.inv.clause.nodup r hr)
      (by have := hok.inv.clause.size r hr; omega) u
    exact assignmentLevel_mem s u (s.clause r).lits hm hne

theorem assignOk_binary {orig : Base} {G : Assignment → Prop} {s : Solver}
    (hok : Ok orig G s) {u o : Nat} (hm : Watch.binary o ∈ s.watches u)
    (h0 : s.values u = 0) (hv : s.values o = -1) (jump : Bool) :
    AssignOk s (s.lev o) u (.binary (jumpReason (s.assigned (o / 2)) jump o)) := by
  have hbin := hok.inv.clause.bin u o hm
  have hf : s.bins [u, o] := ⟨_, _, hm, rfl⟩
  have hv1 : s.values (neg o) = 1 := hok.inv.trail.neg_pos.2 hv
  refine ⟨h0, hbin.2.2.2.1, ?_, ?_⟩
  · have := hok.inv.trail.levle (neg o) hv1
    rwa [lev_neg] at this
  · have plain : ReasonOk s (s.lev o) u (.binary o) :=
      ⟨hv, rfl, UP.binary hf (.assumed rfl)⟩
    unfold jumpReason
    split
    · cases hre : (s.assigned (o / 2)).reason with
      | unit => exact plain
      | decision => exact plain
      | large r => exact plain
      | binary r =>
        obtain ⟨x1, x2, _, x4⟩ := hok.inv.reason.binary (neg o) r hv1 (by rw [neg_div]; exact hre)
        refine ⟨x1, x2.trans (lev_neg _ _), UP.binary hf x4⟩
    · exact plain

theorem clause_congr {s s' : Solver} (h : s'.arena = s.arena) (r : Nat) :
    s'.clause r = s.clause r := by unfold Solver.clause; rw [h]

theorem drive_large {orig : Base} {G : Assignment → Prop} {s : Solver}
    (hok : Ok orig G s) {r u o : Nat}
    (hw : WatchedX s (fun r' _ => r' = r) (fun _ _ => False)) (hr : s.Live r)
    (hu : (s.clause r).lits[0]? = some u) (ho : (s.clause r).lits[1]? = some o)
    (h0 : s.values u = 0) (hfalse : ∀ m ∈ (s.clause r).lits, m ≠ u → s.values m = -1)
    (hlev : ∀ m ∈ (s.clause r).lits, m ≠ u → s.lev m ≤ s.lev o) :
    PropInv orig G (s.assignReference u r) := by
  have ha := assignOk_large hok hr (.inl hu) h0 hfalse
  have hne : o ≠ u := by
    rintro rfl
    have := (List.getElem?_inj (List.getElem?_eq_some_iff.1 hu).1
      (hok.inv.clause.nodup r hr)).1 (hu.trans ho.symm)
    omega
  have hum : u ∈ (s.clause r).lits := List.mem_iff_getElem?.2 ⟨_, hu⟩
  have hom : o ∈ (s.clause r).lits := List.mem_iff_getElem?.2 ⟨_, ho⟩
  have hlv : s.assignmentLevel u (s.clause r).lits = s.lev o :=
    Nat.le_antisymm (assignmentLevel_le _ _ _ hlev) (assignmentLevel_ge _ _ _ hom hne)
  have hok' := hok.assign ha (by simp)
  have hw' := hw.assign hok.inv.trail (level := s.assignmentLevel u (s.clause r).lits)
    (reason := .large r) h0
  unfold Solver.assignReference
  refine hok'.propInv hw' (fun r' w e hl hwt hv => ?_) (fun _ _ e => e.elim)
  subst e
  have hf := assign_fields s (s.assignmentLevel u (s.clause r').lits) u (.large r')
  have hcl : (s.assign (s.assignmentLevel u (s.clause r').lits) u (.large r')).clause r' =
      s.clause r' := clause_congr hf.2.2.2.1 r'
  rw [hcl] at hwt ⊢
  have hwo : w = o := by
    rcases hwt with e | e
    · rw [hu] at e; have e := Option.some.inj e; subst e
      rw [assign_values, if_neg (ne_neg _), if_pos rfl] at hv; cases hv
    · rw [ho] at e; exact (Option.some.inj e).symm
  subst hwo
  refine satisfying_of_level hok'.inv.trail hum ?_ hv ?_
  · rw [assign_values, if_neg (ne_neg _), if_pos rfl]
  · rw [assign_lev, assign_lev, if_pos rfl, hlv]
    split <;> exact Nat.le_refl _

theorem drive_binary {orig : Base} {G : Assignment → Prop} {s : Solver}
    (hok : Ok orig G s) {u o : Nat}
    (hw : WatchedX s (fun _ _ => False) (fun x y => x = o ∧ y = u ∨ x = u ∧ y = o))
    (hm : Watch.binary o ∈ s.watches u) (h0 : s.values u = 0) (hv : s.values o = -1) :
    PropInv orig G (s.assignBinary u o) := by
  have ha := assignOk_binary hok hm h0 hv s.options.jumpreasons
  have hok' := hok.assign ha (by simp)
  have hw' := hw.assign hok.inv.trail (level := s.lev o)
    (reason := .binary (jumpReason (s.assigned (o / 2)) s.options.jumpreasons o)) h0
  have e : s.assignBinary u o = s.assign (s.lev o) u
    (.binary (jumpReason (s.assigned (o / 2)) s.options.jumpreasons o)) := rfl
  rw [e]
  refine hok'.propInv hw' (fun _ _ e => e.elim) (fun x y e _ hx => ?_)
  rcases e with ⟨rfl, rfl⟩ | ⟨rfl, rfl⟩
  · refine satisfying_of_level hok'.inv.trail (t := y) (by simp) ?_ hx ?_
    · rw [assign_values, if_neg (ne_neg _), if_pos rfl]
    · rw [assign_lev, assign_lev, if_pos rfl]
      split <;> exact Nat.le_refl _
  · rw [assign_values, if_neg (ne_neg _), if_pos rfl] at hx; cases hx

/-! ## Sizes -/

theorem totalSize_set {s : Solver} {r : Nat} (hr : r < s.arena.length) (c : Clause) :
    (s.setClause r c).totalSize +
      (if (s.clause r).garbage then 0 else (s.clause r).lits.length) =
    s.totalSize + (if c.garbage then 0 else c.lits.length) := by
  have key : ∀ (l : List Clause) (r : Nat) (d : Clause) (p : Clause → Nat), l[r]? = some d →
      ((l.set r c).map p).sum + p d = (l.map p).sum + p c := by
    intro l
    induction l with
    | nil => intro r d p h; simp at h
    | cons a l ih =>
      intro r d p h
      cases r with
      | zero =>
        simp at h; subst h
        simp; omega
      | succ r =>
        simp at h
        have := ih r d p h
        simp only [List.set_cons_succ, List.map_cons, List.sum_cons]; omega
  exact key s.arena r (s.clause r) _ (clause_get hr)

/-! ## The function itself -/

/-- Exempted watches during the analysis of conflict `c` at level `L`. -/
def exL (s : Solver) (L : Nat) (c : Conflict) (r w : Nat) : Prop :=
  L ≤ s.lev w ∨ c = .large r
def exB (s : Solver) (L : Nat) (c : Conflict) (w o : Nat) : Prop :=
  L ≤ s.lev w ∨ (c = .binary w o ∨ c = .binary o w)

/-- The invariant when a conflict is analyzed. -/
structure AInv (orig : Base) (G : Assignment → Prop) (s : Solver) (c : Conflict) :
    Prop where
  pos : 0 < s.level
  conf : ConflictOk s c
  ok : ∃ k, OkAt orig G s.level k s ∧ ∀ l ∈ s.conflictLits c, s.lev l = s.level → s.pos l < k
  watch : ∃ kk, WatchingX s kk (exL s s.level c) (exB s s.level c) ∧
    ∀ f ∈ s.frames, f.trail ≤ kk

/-- The invariant when the conflict has several literals on the conflict level. -/
structure Many (orig : Base) (G : Assignment → Prop) (s : Solver) (c : Conflict) :
    Prop where
  pos : 0 < s.level
  conf : ConflictOk s c
  ok : ∃ k, OkAt orig G s.level k s ∧ ∀ l ∈ s.conflictLits c, s.lev l = s.level → s.pos l < k
  watch : ∃ kk, WatchingX s kk (fun _ w => s.level ≤ s.lev w) (fun w _ => s.level ≤ s.lev w) ∧
    ∀ f ∈ s.frames, f.trail ≤ kk
  two : ∃ a b, a ∈ s.conflictLits c ∧ b ∈ s.conflictLits c ∧ a ≠ b ∧ s.lev a = s.level ∧
    s.lev b = s.level
  head : ∀ r, c = .large r → ∀ w, (s.clause r).Watched w → s.lev w = s.level

/-- What analysis never changes. -/
structure Kept (s s' : Solver) : Prop where
  vars : s'.vars = s.vars
  removed : s'.removed = s.removed
  options : s'.options = s.options
  inconsistent : s'.inconsistent = s.inconsistent
  decisions : s'.decisions = s.decisions
  loose : s'.loose = s.loose
  /-- values on the root level -/
  root : ∀ x, s.values x ≠ 0 → s.lev x = 0 → s'.values x = s.values x ∧ s'.lev x = 0

theorem Kept.refl (s : Solver) : Kept s s := ⟨rfl, rfl, rfl, rfl, rfl, rfl, fun _ _ h => ⟨rfl, h⟩⟩
theorem Kept.trans {s t u : Solver} (h : Kept s t) (h' : Kept t u) : Kept s u :=
  ⟨h'.1.trans h.1, h'.2.trans h.2, h'.3.trans h.3, h'.4.trans h.4, h'.5.trans h.5,
    h'.6.trans h.6, fun x hx h0 => by
      obtain ⟨a, b⟩ := h.root x hx h0
      obtain ⟨c, d⟩ := h'.root x (by rw [a]; exact hx) b
      exact ⟨c.trans a, d⟩⟩
theorem Back.kept {s s' : Solver} {n : Nat} (h : Back s n s') : Kept s s' :=
  ⟨h.vars, h.removed, h.options, h.inconsistent, h.decisions, h.loose, fun x _ h0 =>
    ⟨h.keep (by omega), (h.lev x).trans h0⟩⟩
theorem Kept.assign {s : Solver} (ht : TrailInv s) (level : Nat) {lit : Nat} (reason : Reason)
    (hlit : s.values lit = 0) : Kept s (s.assign level lit reason) := by
  have h := assign_fields s level lit reason
  exact ⟨h.2.2.2.2.2.1, h.2.2.2.2.2.2.2.2.1, h.2.2.2.2.2.2.2.1, h.2.2.2.2.2.2.2.2.2.2.1,
    h.2.2.2.2.2.2.2.2.2.2.2.2.1, h.2.2.2.2.2.2.2.2.2.2.2.2.2, fun x hx h0 => by
      have hd : x / 2 ≠ lit / 2 := fun e => by
        have := ht.anti lit
        rcases eq_or_eq_neg e with rfl | rfl <;> omega
      rw [assign_values, assign_lev, if_neg hd, if_neg, if_neg]
      · exact ⟨rfl, h0⟩
      · rintro rfl; exact hd rfl
      · rintro rfl; exact hd (neg_div lit)⟩

theorem conflictLits_nodup {orig : Base} {G : Assignment → Prop} {s : Solver} {L k : Nat}
    (h : OkAt orig G L k s) {c : Conflict} (hc : ConflictOk s c) :
    (s.conflictLits c).Nodup ∧ 2 ≤ (s.conflictLits c).length ∧
      ∀ l ∈ s.conflictLits c, neg l ∉ s.conflictLits c := by
  cases c with
  | binary a b =>
    have := h.inv.clause.bin a b hc.1
    refine ⟨by simp [Solver.conflictLits, this.2.1], by simp [Solver.conflictLits], ?_⟩
    intro l hl hn
    simp only [Solver.conflictLits, List.mem_cons, List.not_mem_nil, or_false] at hl hn
    have h1 := ne_neg a
    have h2 := ne_neg b
    rcases hl with rfl | rfl <;> rcases hn with hn | hn
    · exact h1 hn.symm
    · exact this.2.2.1 (neg_eq_iff.1 hn)
    · exact this.2.2.1 hn.symm
    · exact h2 hn.symm
  | large r =>
    have := h.inv.clause.size r hc.1
    exact ⟨h.inv.clause.nodup r hc.1, by show 2 ≤ (s.clause r).lits.length; omega,
      h.inv.clause.taut r hc.1⟩

theorem determineNewLevel_spec (s : Solver) {J : Nat} (hJ : J < s.level) :
    J ≤ s.determineNewLevel J ∧ s.determineNewLevel J < s.level := by
  unfold Solver.determineNewLevel
  simp only
  by_cases h1 : s.level - 1 - J = 0
  · rw [if_pos h1]; omega
  · rw [if_neg h1]
    split
    · split <;> omega
    · split <;> omega

/-- State before the literals are reordered. -/
structure Ready (orig : Base) (G : Assignment → Prop) (s : Solver) (c : Conflict)
    (M : Nat) : Prop where
  level : s.level = M
  conf : ConflictOk s c
  ok : ∃ k, OkAt orig G s.level k s ∧ ∀ l ∈ s.conflictLits c, s.lev l = s.level → s.pos l < k
  watch : ∃ kk, WatchingX s kk (exL s s.level c) (exB s s.level c) ∧
    ∀ f ∈ s.frames, f.trail ≤ kk

theorem ready {orig : Base} {G : Assignment → Prop} {s : Solver} {c : Conflict}
    (h : AInv orig G s c) {M : Nat} (hM : ∀ l ∈ s.conflictLits c, s.lev l ≤ M) (hMl : M ≤ s.level)
    (hM0 : 0 < M) :
    Ready orig G (if M < s.level then s.backtrackAfterConflict M else s) c M ∧
    Back s M (if M < s.level then s.backtrackAfterConflict M else s) := by
  obtain ⟨k, hok, hk⟩ := h.ok
  obtain ⟨kk, hw, hf⟩ := h.watch
  by_cases hlt : M < s.level
  · rw [if_pos hlt]
    obtain ⟨hb, hok', hw'⟩ := backtrackAfterConflict_ok hok hw hf hlt
    generalize s.backtrackAfterConflict M = t at *
    have hconf := hb.conflictOk h.conf hM
    refine ⟨⟨hb.level, hconf, ⟨t.trail.length,
      hok'.at _ _ (Nat.le_succ _), ?_⟩, t.propagate, ?_, hw'.frames⟩, hb⟩
    · intro l hl hlv
      have hv := hconf.false l hl
      have := hok'.inv.trail.on_trail (hok'.inv.trail.neg_pos.2 hv)
      rw [lev_neg, hlv] at this
      have := hok'.inv.trail.pos_lt (this (by rw [hb.level]; omega))
      rwa [pos_neg] at this
    · have h1 := hw'.dropLevel (fun r w hA hv => by
        have := hb.nonzero (x := w) (by omega); omega) (fun w o hB hv => by
        have := hb.nonzero (x := w) (by omega); omega)
      exact h1.watching.weaken (fun r w h => .inr h) (fun w o h => .inr h)
  · rw [if_neg hlt]
    have e : M = s.level := by omega
    refine ⟨⟨e.symm, h.conf, ⟨k, hok, hk⟩, ⟨kk, hw, hf⟩⟩, ?_⟩
    refine ⟨?_, fun x => ?_, fun _ => rfl, fun _ => rfl, e.symm, rfl, rfl, rfl, rfl, rfl, rfl, rfl,
      rfl, rfl, rfl, rfl, rfl, rfl⟩
    · symm; rw [List.filter_eq_self]
      intro l hl
      have := hok.inv.trail.levle l (hok.inv.trail.tval l hl)
      simpa using by omega
    · rw [if_neg]
      rintro ⟨h1, h2⟩
      rcases hok.inv.trail.dom x with hx | hx | hx
      · have := hok.inv.trail.levle x hx; omega
      · exact h1 hx
      · have := hok.inv.trail.levle (neg x) (hok.inv.trail.neg_pos.2 hx)
        rw [lev_neg] at this; omega

/-- Two permutations in a row. -/
theorem moveTwice_ok {orig : Base} {G : Assignment → Prop} {s : Solver} {L k M r : Nat}
    (h : OkAt orig G L k s) (hc : ConflictOk s (.large r))
    (hM : ∀ l ∈ (s.clause r).lits, s.lev l ≤ M) :
    ∃ c W, moveHighest M r 1 (moveHighest M r 0 s) = { s.setClause r c with watches := W } ∧
      Permuted s r c ∧
      (∀ x, c.lits[0]? = some x → ∀ l ∈ c.lits, s.lev l ≤ s.lev x) ∧
      (∀ x, c.lits[1]? = some x → ∀ l ∈ c.lits.drop 1, s.lev l ≤ s.lev x) ∧
      SameBin W s.watches ∧
      OkAt orig G L k (moveHighest M r 1 (moveHighest M r 0 s)) := by
  have hlt := clause_lt hc.1
  obtain ⟨c1, W1, e1, m1, ok1⟩ := moveHighest_ok h hc (i := 0) (by omega) hM
  have cl1 : (moveHighest M r 0 s).clause r = c1 := by rw [e1]; exact setClause_same hlt
  have lev1 : (moveHighest M r 0 s).lev = s.lev := by rw [e1]; rfl
  have w1 : (moveHighest M r 0 s).watches = W1 := by rw [e1]
  have hc1 : ConflictOk (moveHighest M r 0 s) (.large r) := by
    refine ⟨by unfold Solver.Live; rw [cl1, m1.garbage]; exact hc.1, ?_⟩
    rw [cl1]
    intro l hl
    rw [show (moveHighest M r 0 s).values = s.values by rw [e1]; rfl]
    exact hc.2 l (m1.perm.mem_iff.1 hl)
  obtain ⟨c2, W2, e2, m2, ok2⟩ := moveHighest_ok ok1 hc1 (i := 1) (by omega) (M := M) (by
    rw [cl1, lev1]; exact fun l hl => hM l (m1.perm.mem_iff.1 hl))
  have hp2 := m2.perm
  rw [cl1] at hp2
  have hbef := m2.before 0 (by omega)
  rw [cl1] at hbef
  refine ⟨c2, W2, ?_, ⟨hc.1, hp2.trans m1.perm, ?_, ?_, ?_⟩, ?_, ?_, ?_, ok2⟩
  · rw [e2, e1]
    unfold Solver.setClause
    simp only [List.set_set]
  · rw [m2.garbage, cl1, m1.garbage]; exact hc.1
  · rw [m2.redundant, cl1, m1.redundant]
  · have hl : (moveHighest M r 1 (moveHighest M r 0 s)).Live r := by
      unfold Solver.Live
      rw [e2]
      show ((Solver.setClause _ r c2).clause r).garbage = false
      rw [setClause_same (by rw [e1]; simpa [Solver.setClause] using hlt), m2.garbage]
      exact hc1.1
    have := ok2.inv.clause.searched r hl
    have e3 : (moveHighest M r 1 (moveHighest M r 0 s)).clause r = c2 := by
      rw [e2]; exact setClause_same (by rw [e1]; simpa [Solver.setClause] using hlt)
    rw [e3] at this; exact this
  · intro x hx l hl
    rw [hbef] at hx
    exact m1.highest x hx l (by rw [List.drop_zero]; exact hp2.mem_iff.1 hl)
  · intro x hx l hl
    have := m2.highest x hx l hl
    rw [lev1] at this; exact this
  · intro a b
    rw [m2.bin, w1]; exact m1.bin a b

theorem Permuted.watchingX {s : Solver} {r k : Nat} {c : Clause} {W : Nat → List Watch}
    (_ : Permuted s r c) {A B : Nat → Nat → Prop} (h : WatchingX s k A B)
    (hA : ∀ w, A r w) (hB : SameBin W s.watches) :
    WatchingX { s.setClause r c with watches := W } k A B := by
  refine ⟨fun r' w hn hl hw hv hd => ?_, fun w o hn hw hv hd => ?_⟩
  · have hne : r' ≠ r := fun e => hn (e ▸ hA w)
    have hcl : ({ s.setClause r c with watches := W } : Solver).clause r' = s.clause r' :=
      setClause_other hne
    rw [hcl] at hw ⊢
    exact h.large r' w hn (by unfold Solver.Live; rw [← hcl]; exact hl) hw hv hd
  · exact h.binary w o hn ((hB.iff w o).1 hw) hv hd

theorem Permuted.totalSize {s : Solver} {r : Nat} {c : Clause} (hp : Permuted s r c) :
    (s.setClause r c).totalSize = s.totalSize := by
  have := totalSize_set hp.lt c
  have g : (s.clause r).garbage = false := hp.live
  rw [g, hp.garbage, hp.perm.length_eq] at this
  omega

theorem oneLiteral_ok {orig : Base} {G : Assignment → Prop} {s : Solver} {c : Conflict}
    (h : AInv orig G s c) :
    match (oneLiteral s c).2 with
    | .root => (∃ k, OkAt orig G s.level k (oneLiteral s c).1) ∧
        (oneLiteral s c).1.inconsistent = true
    | .forced => PropInv orig G (oneLiteral s c).1 ∧ Kept s (oneLiteral s c).1
    | .many M => Many orig G (oneLiteral s c).1 c ∧ (oneLiteral s c).1.level = M ∧
        Kept s (oneLiteral s c).1 ∧ (oneLiteral s c).1.totalSize = s.totalSize := by
  obtain ⟨k, hok, hk⟩ := h.ok
  have ht := hok.inv.trail
  obtain ⟨hnd, hlen, htaut⟩ := conflictLits_nodup hok h.conf
  have hle : ∀ l ∈ s.conflictLits c, s.lev l ≤ s.level := fun l hl => by
    have := ht.levle (neg l) (ht.neg_pos.2 (h.conf.false l hl))
    rwa [lev_neg] at this
  obtain ⟨M, hs⟩ := scanConflict_spec (s := s) (lits := s.conflictLits c)
    (by intro e; rw [e] at hlen; simp at hlen) hnd hle
  unfold oneLiteral
  generalize scanConflict s (s.conflictLits c) ⟨none, none, 0, 0⟩ = t at hs
  simp only [hs.conflict, Option.getD_some]
  by_cases hM0 : M = 0
  · rw [if_pos hM0]
    simp only
    exact ⟨⟨k, Ok.inconsistent hok (h.conf.rup_nil ht fun l hl => by
      have := hs.le l hl; omega)⟩, rfl⟩
  · rw [if_neg hM0]
    have hMl : M ≤ s.level := by rw [← hs.forced.2]; exact hle _ hs.forced.1
    obtain ⟨hrd, hb⟩ := ready h hs.le hMl (by omega)
    generalize (if M < s.level then s.backtrackAfterConflict M else s) = s1 at hrd hb
    obtain ⟨k1, hok1, hk1⟩ := hrd.ok
    obtain ⟨kk, hw1, hf1⟩ := hrd.watch
    have hkept := hb.kept
    have hcl := hb.conflictLits c
    cases c with
    | binary a b =>
      have hcl' : s.conflictLits (.binary a b) = [a, b] := rfl
      simp only
      have hab : a ≠ b := by rw [hcl'] at hnd; simpa using hnd
      by_cases hcount : 1 < t.count
      · rw [if_pos hcount]
        simp only
        obtain ⟨x, y, hx, hy, hxy, hlx, hly⟩ := hs.many hcount
        have hboth : s1.lev a = s1.level ∧ s1.lev b = s1.level := by
          rw [hb.lev, hb.lev, hb.level]
          rw [hcl'] at hx hy
          simp only [List.mem_cons, List.not_mem_nil, or_false] at hx hy
          rcases hx with rfl | rfl <;> rcases hy with rfl | rfl
          · exact absurd rfl hxy
          · exact ⟨hlx, hly⟩
          · exact ⟨hly, hlx⟩
          · exact absurd rfl hxy
        refine ⟨⟨by rw [hb.level]; omega, hrd.conf, ⟨k1, hok1, hk1⟩, ⟨kk, ?_, hf1⟩,
          ⟨a, b, by simp [Solver.conflictLits], by simp [Solver.conflictLits], hab, hboth.1,
            hboth.2⟩, fun r e => by cases e⟩, hb.level, hkept, ?_⟩
        · refine hw1.weaken (fun r w hx => ?_) (fun w o hx => ?_)
          · rcases hx with hx | hx
            · exact hx
            · cases hx
          · rcases hx with hx | hx | hx
            · exact hx
            · cases hx; rw [hboth.1]; exact Nat.le_refl _
            · cases hx; rw [hboth.2]; exact Nat.le_refl _
        · unfold Solver.totalSize; rw [hb.arena]
      · rw [if_neg hcount]
        simp only
        -- the other literal
        have key : ∃ o, a ^^^ b ^^^ t.forced = o ∧ o ≠ t.forced ∧ o ∈ [a, b] ∧
            Watch.binary o ∈ s1.watches t.forced ∧ s1.values o = -1 ∧
            (∀ x y, (Conflict.binary a b = .binary x y ∨ Conflict.binary a b = .binary y x) ↔
              (x = o ∧ y = t.forced ∨ x = t.forced ∧ y = o)) := by
          have hconf := hrd.conf
          have hbin := hok1.inv.clause.bin a b hconf.1
          have hfm := hs.forced.1
          rw [hcl'] at hfm
          simp only [List.mem_cons, List.not_mem_nil, or_false] at hfm
          rcases hfm with e | e
          · refine ⟨b, by rw [e]; exact xor_cancel a b, by rw [e]; exact hab.symm, by simp,
              by rw [e]; exact hconf.1, hconf.2.2, fun x y => ?_⟩
            rw [e]
            constructor
            · rintro (h | h)
              · cases h; exact .inr ⟨rfl, rfl⟩
              · cases h; exact .inl ⟨rfl, rfl⟩
            · rintro (⟨rfl, rfl⟩ | ⟨rfl, rfl⟩)
              · exact .inr rfl
              · exact .inl rfl
          · refine ⟨a, by rw [e]; exact xor_cancel' a b, by rw [e]; exact hab, by simp,
              by rw [e]; exact hbin.1, hconf.2.1, fun x y => ?_⟩
            rw [e]
            constructor
            · rintro (h | h)
              · cases h; exact .inl ⟨rfl, rfl⟩
              · cases h; exact .inr ⟨rfl, rfl⟩
            · rintro (⟨rfl, rfl⟩ | ⟨rfl, rfl⟩)
              · exact .inl rfl
              · exact .inr rfl
        obtain ⟨o, ho, hne, hom, hwo, hov, hex⟩ := key
        rw [ho]
        obtain ⟨hlt, J, hJ, hle'⟩ := hs.one (by omega) o hom hne
        obtain ⟨l, hl, hlne, hlJ⟩ := hs.jump (by omega) J hJ
        have hJM : J < M := by rw [← hlJ]; exact (hs.one (by omega) l hl hlne).1
        rw [hJ, Option.getD_some]
        have hd := determineNewLevel_spec s1 (J := J) (by rw [hb.level]; exact hJM)
        generalize s1.determineNewLevel J = n at hd
        obtain ⟨hb2, hok2, hw2⟩ := backtrackAfterConflict_ok hok1 hw1 hf1 hd.2
        generalize s1.backtrackAfterConflict n = s2 at hb2 hok2 hw2
        rw [hb.level] at hd
        refine ⟨drive_binary hok2 ?_ (by rw [hb2.watches]; exact hwo) ?_ ?_, ?_⟩
        · have h1 := hw2.dropLevel (fun r w hA hv => by
            have := hb2.nonzero (x := w) (by omega); rw [hb.level] at hA; omega) (fun w o hB hv => by
            have := hb2.nonzero (x := w) (by omega); rw [hb.level] at hB; omega)
          refine ⟨h1.watching.weaken (fun r w h => by cases h) (fun w o h => (hex w o).1 h),
            h1.frames, h1.le⟩
        · exact hb2.drop (by rw [hb.lev, hs.forced.2]; omega)
        · rw [hb2.keep (by rw [hb.lev]; omega)]; exact hov
        · exact hkept.trans (hb2.kept.trans (Kept.assign hok2.inv.trail _ _
            (hb2.drop (by rw [hb.lev, hs.forced.2]; omega))))
    | large r =>
      have hcl' : s.conflictLits (.large r) = (s.clause r).lits := rfl
      simp only
      have hlive1 : s1.Live r := hrd.conf.1
      have hle1 : ∀ l ∈ (s1.clause r).lits, s1.lev l ≤ M := by
        rw [hb.clause]; intro l hl; rw [hb.lev]; exact hs.le l hl
      obtain ⟨c2, W2, e2, hp2, hhi0, hhi1, hbin2, hok2⟩ := moveTwice_ok hok1 hrd.conf hle1
      generalize hs2 : moveHighest M r 1 (moveHighest M r 0 s1) = s2 at *
      have hw2 : WatchingX s2 kk (exL s1 s1.level (.large r)) (exB s1 s1.level (.large r)) := by
        rw [e2]; exact hp2.watchingX hw1 (fun w => .inr rfl) hbin2
      have hcl2 : s2.clause r = c2 := by rw [e2]; exact setClause_same hp2.lt
      have hlev2 : ∀ x, s2.lev x = s1.lev x := fun x => by rw [e2]; rfl
      have hval2 : ∀ x, s2.values x = s1.values x := fun x => by rw [e2]; rfl
      have hpos2 : ∀ x, s2.pos x = s1.pos x := fun x => by rw [e2]; rfl
      have hl2 : s2.level = s1.level := by rw [e2]; rfl
      have hf2 : s2.frames = s1.frames := by rw [e2]; rfl
      have hkept2 : Kept s1 s2 := by rw [e2]; exact ⟨rfl, rfl, rfl, rfl, rfl, rfl, fun _ _ h => ⟨rfl, h⟩⟩
      have hperm : c2.lits.Perm (s.clause r).lits := by rw [← hb.clause]; exact hp2.perm
      have hsz : 3 ≤ c2.lits.length := by
        rw [hp2.perm.length_eq]; exact hok1.inv.clause.size r hlive1
      have hlive2 : s2.Live r := by unfold Solver.Live; rw [hcl2]; exact hp2.garbage
      have hconf2 : ConflictOk s2 (.large r) := by
        refine ⟨hlive2, ?_⟩
        rw [hcl2]; intro l hl; rw [hval2]; exact hrd.conf.2 l (hp2.perm.mem_iff.1 hl)
      have hnd2 : c2.lits.Nodup := by rw [hperm.nodup_iff]; exact hnd
      obtain ⟨x0, x1, rest, hc2l⟩ : ∃ x0 x1 rest, c2.lits = x0 :: x1 :: rest := by
        match h : c2.lits, hsz with
        | x0 :: x1 :: rest, _ => exact ⟨x0, x1, rest, rfl⟩
      have hx0 := hhi0 x0 (by rw [hc2l]; rfl)
      have hx1 := hhi1 x1 (by rw [hc2l]; rfl)
      have hin : ∀ {l}, l ∈ c2.lits ↔ l ∈ (s.clause r).lits := hperm.mem_iff
      by_cases hcount : 1 < t.count
      · rw [if_pos hcount]
        simp only
        obtain ⟨x, y, hx, hy, hxy, hlx, hly⟩ := hs.many hcount
        have h0M : s1.lev x0 = M := by
          refine Nat.le_antisymm (hle1 x0 (hp2.perm.mem_iff.1 (by rw [hc2l]; simp))) ?_
          rw [← hlx, ← hb.lev]; exact hx0 x (hin.2 hx)
        have h1M : s1.lev x1 = M := by
          refine Nat.le_antisymm (hle1 x1 (hp2.perm.mem_iff.1 (by rw [hc2l]; simp))) ?_
          have : ∃ z, z ∈ c2.lits.drop 1 ∧ s1.lev z = M := by
            by_cases e : x = x0
            · refine ⟨y, ?_, by rw [hb.lev]; exact hly⟩
              have := hin.2 hy
              rw [hc2l] at this ⊢
              rcases List.mem_cons.1 this with h | h
              · exact absurd (e.trans h.symm) hxy
              · exact h
            · refine ⟨x, ?_, by rw [hb.lev]; exact hlx⟩
              have := hin.2 hx
              rw [hc2l] at this ⊢
              rcases List.mem_cons.1 this with h | h
              · exact absurd h e
              · exact h
          obtain ⟨z, hz, hzM⟩ := this
          rw [← hzM]; exact hx1 z hz
        have hwt : ∀ w, (s2.clause r).Watched w → s2.lev w = s2.level := by
          intro w hw
          rw [hcl2] at hw
          unfold Clause.Watched at hw
          rw [hc2l] at hw
          rw [hlev2, hl2, hb.level]
          rcases hw with hw | hw
          · cases hw; exact h0M
          · cases hw; exact h1M
        refine ⟨⟨by rw [hl2, hb.level]; omega, hconf2, ⟨k1, by rw [hl2]; exact hok2, ?_⟩,
          ⟨kk, ?_, by rw [hf2]; exact hf1⟩, ?_, fun r' e => by cases e; exact hwt⟩,
          hl2.trans hb.level, hkept.trans hkept2, ?_⟩
        · intro l hl
          rw [hlev2, hl2, hpos2]
          have hl : l ∈ (s2.clause r).lits := hl
          rw [hcl2] at hl
          exact hk1 l (hp2.perm.mem_iff.1 hl)
        · constructor
          · intro r' w hn hlv hwt' hv hd
            refine hw2.large r' w (fun hx => ?_) hlv hwt' hv hd
            rcases hx with hx | hx
            · exact hn (by rw [hl2, hlev2]; exact hx)
            · cases hx; exact hn (by rw [hwt w hwt']; exact Nat.le_refl _)
          · intro w o hn hw' hv hd
            refine hw2.binary w o (fun hx => ?_) hw' hv hd
            rcases hx with hx | hx | hx
            · exact hn (by rw [hl2, hlev2]; exact hx)
            · cases hx
            · cases hx
        · refine ⟨x, y, ?_, ?_, hxy, ?_, ?_⟩
          · show x ∈ (s2.clause r).lits; rw [hcl2]; exact hin.2 hx
          · show y ∈ (s2.clause r).lits; rw [hcl2]; exact hin.2 hy
          · rw [hlev2, hl2, hb.lev, hb.level]; exact hlx
          · rw [hlev2, hl2, hb.lev, hb.level]; exact hly
        · have h1 : s2.totalSize = s1.totalSize := by rw [e2]; exact hp2.totalSize
          have h2 : s1.totalSize = s.totalSize := by unfold Solver.totalSize; rw [hb.arena]
          rw [h1, h2]
      · rw [if_neg hcount]
        simp only
        have hone := hs.one (by omega)
        have h0f : x0 = t.forced := by
          by_cases e : x0 = t.forced
          · exact e
          · have h1 := (hone x0 (hin.1 (by rw [hc2l]; simp)) e).1
            have h2 := hx0 t.forced (hin.2 hs.forced.1)
            rw [hb.lev, hb.lev, hs.forced.2] at h2
            omega
        have h1ne : x1 ≠ t.forced := by
          rw [← h0f]; rintro rfl
          rw [hc2l] at hnd2; simp at hnd2
        obtain ⟨hlt1, J, hJ, hle'⟩ := hone x1 (hin.1 (by rw [hc2l]; simp)) h1ne
        obtain ⟨l, hl, hlne, hlJ⟩ := hs.jump (by omega) J hJ
        have hJM : J < M := by rw [← hlJ]; exact (hone l hl hlne).1
        have hx1J : ∀ m ∈ c2.lits, m ≠ t.forced → s1.lev m ≤ s1.lev x1 := by
          intro m hm hne
          refine hx1 m ?_
          rw [hc2l] at hm ⊢
          rcases List.mem_cons.1 hm with h | h
          · exact absurd (h.trans h0f) hne
          · exact h
        rw [hJ, Option.getD_some]
        have hd := determineNewLevel_spec s2 (J := J) (by rw [hl2, hb.level]; exact hJM)
        generalize s2.determineNewLevel J = n at hd
        obtain ⟨hb3, hok3, hw3⟩ := backtrackAfterConflict_ok (by rw [hl2]; exact hok2) hw2
          (by rw [hf2]; exact hf1) hd.2
        generalize s2.backtrackAfterConflict n = s3 at hb3 hok3 hw3
        rw [hl2, hb.level] at hd
        have hcl3 : s3.clause r = c2 := by rw [hb3.clause, hcl2]
        have hlev3 : ∀ x, s3.lev x = s.lev x := fun x => by rw [hb3.lev, hlev2, hb.lev]
        refine ⟨drive_large (o := x1) hok3 ?_ ((hb3.live r).2 hlive2) ?_ ?_ ?_ ?_ ?_, ?_⟩
        · have h1 := hw3.dropLevel (fun r w hA hv => by
            have := hb3.nonzero (x := w) (by omega)
            rw [hb.level] at hA; rw [hlev2] at this; omega) (fun w o hB hv => by
            have := hb3.nonzero (x := w) (by omega)
            rw [hb.level] at hB; rw [hlev2] at this; omega)
          exact ⟨h1.watching.weaken (fun r w h => by cases h; rfl) (fun w o h => by
            rcases h with h | h <;> cases h), h1.frames, h1.le⟩
        · rw [hcl3, hc2l, h0f]; rfl
        · rw [hcl3, hc2l]; rfl
        · exact hb3.drop (by rw [hlev2, hb.lev, hs.forced.2]; omega)
        · rw [hcl3]
          intro m hm hne
          have h1 := hx1J m hm hne
          rw [hb3.keep (by rw [hlev2]; rw [hb.lev x1] at h1; omega)]
          have := hconf2.2 m (by rw [hcl2]; exact hm)
          exact this
        · rw [hcl3]
          intro m hm hne
          have h1 := hx1J m hm hne
          rw [hb.lev, hb.lev] at h1
          rw [hlev3, hlev3]; exact h1
        · exact hkept.trans (hkept2.trans (hb3.kept.trans (Kept.assign hok3.inv.trail _ _
            (hb3.drop (by rw [hlev2, hb.lev, hs.forced.2]; omega)))))

end Verif.Core
