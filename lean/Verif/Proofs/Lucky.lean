import Verif.Model.Lucky
import Verif.Proofs.Core.Search

/-! # Lucky phases -/

namespace Verif.Core

open Verif.Spec

/-- Completely propagated state in which no literal was assigned on a lower level after
the start of a decision level. -/
structure Steady (orig : Base) (G : Assignment → Prop) (s : Solver) : Prop where
  prop : PropInv orig G s
  consistent : s.inconsistent = false
  full : s.propagate = s.trail.length
  ordered : ∀ j f, s.frames[j]? = some f → ∀ l ∈ s.trail.drop f.trail, j < s.lev l
  loose : s.loose = false

theorem Steady.strict {s : Solver} (h : Steady orig G s) : s.loose = true → s.level = 0 := fun e => by
  rw [h.loose] at e; cases e

/-- Values are only added. -/
def ValuesKept (s s' : Solver) : Prop := ∀ x, s.values x ≠ 0 → s'.values x = s.values x

theorem ValuesKept.trans {s t u : Solver} (h : ValuesKept s t) (h' : ValuesKept t u) :
    ValuesKept s u := fun x hx => by
  have := h x hx
  rw [h' x (by rw [this]; exact hx), this]

/-- Above the root level propagation does not touch statistics or the trail flush. -/
theorem probing_pos {orig : Base} {G : Assignment → Prop} {s : Solver} (h : PropInv orig G s)
    (h0 : s.level ≠ 0) : probingPropagate s = propagateLoop (s.vars + 1) s := by
  have hp := propagateLoop_ok (s.vars + 1) h (by omega)
  unfold probingPropagate searchPropagate
  cases hres : propagateLoop (s.vars + 1) s with
  | mk t c =>
    rw [hres] at hp
    obtain ⟨hfz, _, hcf, _⟩ := hp
    simp only at hfz hcf ⊢
    have hl : t.level ≠ 0 := by rw [hfz.level]; exact h0
    have : ({ updateConflictsAndTrail t c with conflicts := s.conflicts } : Solver) = t := by
      unfold updateConflictsAndTrail
      cases c with
      | none =>
        simp only
        rw [if_neg (fun h => hl h.1), ← hcf]
      | some c =>
        simp only
        rw [if_neg hl, ← hcf]
    rw [this]

/-- State after assuming `lit` in `s0` and propagating. -/
structure Raised (orig : Base) (G : Assignment → Prop) (s0 : Solver) (lit : Nat) (t : Solver) :
    Prop where
  ok : Ok orig G t
  growth : Growth (fun n => n = s0.level + 1) (s0.assume lit) t
  stay : Stay s0 t
  level : t.level = s0.level + 1
  consistent : t.inconsistent = false
  frames : t.frames = s0.frames ++ [⟨lit, s0.trail.length⟩]
  ordered : ∀ j f, t.frames[j]? = some f → ∀ l ∈ t.trail.drop f.trail, j < t.lev l
  kept : ∀ x, s0.values x ≠ 0 → t.values x = s0.values x ∧ t.lev x = s0.lev x
  lit : t.values lit = 1 ∧ t.lev lit = s0.level + 1
  new : ∀ x, t.values x ≠ 0 → t.lev x ≠ s0.level + 1 → s0.values x = t.values x
  loose : t.loose = false

theorem level_le_of {s : Solver} (ht : TrailInv s) {x : Nat} (hx : s.values x ≠ 0) :
    s.lev x ≤ s.level := by
  rcases ht.dom x with h | h | h
  · exact ht.levle x h
  · exact absurd h hx
  · have := ht.levle (neg x) (ht.neg_pos.2 h)
    rwa [lev_neg] at this

section
variable {orig : Base} {G : Assignment → Prop}

theorem Steady.raise {s0 : Solver} (h : Steady orig G s0) {lit : Nat} (h0 : s0.values lit = 0)
    (hval : s0.Valid lit) :
    Raised orig G s0 lit (probingPropagate (s0.assume lit)).1 ∧
    match (probingPropagate (s0.assume lit)).2 with
    | none => Steady orig G (probingPropagate (s0.assume lit)).1
    | some c => ConflictOk (probingPropagate (s0.assume lit)).1 c ∧
        ∃ k, Watching (probingPropagate (s0.assume lit)).1 k ∧
          ∀ f ∈ (probingPropagate (s0.assume lit)).1.frames, f.trail ≤ k := by
  have ht := h.prop.ok.inv.trail
  have h1 := h.prop.assume h.full h0 hval
  have hlevel : (s0.assume lit).level = s0.level + 1 := by rw [assume_eq]
  have hframes : (s0.assume lit).frames = s0.frames ++ [⟨lit, s0.trail.length⟩] := by rw [assume_eq]
  have htrail : (s0.assume lit).trail = s0.trail ++ [lit] := by rw [assume_eq]; rfl
  have hstay : Stay s0 (s0.assume lit) := by rw [assume_eq]; exact ⟨rfl, rfl, rfl⟩
  have hinc : (s0.assume lit).inconsistent = s0.inconsistent := by rw [assume_eq]; rfl
  have hlo : (s0.assume lit).loose = s0.loose := by rw [assume_eq]; rfl
  have hwatch : (s0.assume lit).watches = s0.watches := by rw [assume_eq]; rfl
  have hclause : ∀ r, (s0.assume lit).clause r = s0.clause r := by
    intro r; unfold Solver.clause; rw [assume_eq]; rfl
  have hlast : (s0.assume lit).lev lit = s0.level + 1 := by rw [assume_lev, if_pos rfl]
  have hback : ∀ x, (s0.assume lit).values x ≠ 0 → (s0.assume lit).lev x ≠ s0.level + 1 →
      s0.values x = (s0.assume lit).values x := by
    intro x hx hl
    rw [assume_lev] at hl
    split at hl
    · exact absurd rfl hl
    · rename_i hne
      rw [assume_values, if_neg, if_neg]
      · rintro rfl; exact hne rfl
      · rintro rfl; exact hne (neg_div lit)
  have hB := Bound.of_complete h.prop h.full h.strict
  have hA : Adequate (fun n => n = s0.level + 1) (s0.assume lit) := by
    have nz : ∀ u, s0.values u = 1 → (s0.assume lit).values u ≠ 0 := fun u hu => by
      rw [(assume_old ht h0 (by omega)).1]; omega
    have fb : ∀ m, (s0.assume lit).values m = -1 → (s0.assume lit).lev m ≠ s0.level + 1 →
        s0.values (neg m) = 1 := fun m hm hl => by
      have := hback m (by omega) hl
      exact ht.neg_pos.2 (by omega)
    refine adequate_level hlevel ?_ ?_
    · intro r hr u hu hm
      unfold Solver.Live at hr
      rw [hclause] at hr hu hm
      exact nz u (hB.large r hr u hu fun m hm' hne => fb m (hm m hm' hne).1 (hm m hm' hne).2)
    · intro a b hab ha hl
      rw [hwatch] at hab
      exact nz b (hB.bin a b hab (fb a ha hl))
  have hpl := propagateLoop_ok ((s0.assume lit).vars + 1) h1 (by omega)
  have hg := Growth.loop hA ((s0.assume lit).vars + 1) h1 (.refl _ _)
  rw [probing_pos h1 (by rw [hlevel]; omega)]
  generalize propagateLoop ((s0.assume lit).vars + 1) (s0.assume lit) = p at hpl hg
  obtain ⟨t, c⟩ := p
  obtain ⟨hfz, hok, hcf, hpl⟩ := hpl
  simp only at hfz hok hcf hpl hg ⊢
  have hkept : ∀ x, s0.values x ≠ 0 → t.values x = s0.values x ∧ t.lev x = s0.lev x := by
    intro x hx
    obtain ⟨a, b⟩ := assume_old ht h0 hx
    obtain ⟨a', b'⟩ := hg.old x (by rw [a]; exact hx)
    exact ⟨a'.trans a, b'.trans b⟩
  have hlit : t.values lit = 1 ∧ t.lev lit = s0.level + 1 := by
    have : (s0.assume lit).values lit = 1 := by
      rw [assume_values, if_neg (neg_ne lit).symm, if_pos rfl]
    obtain ⟨a, b⟩ := hg.old lit (by omega)
    exact ⟨a.trans this, b.trans hlast⟩
  have hord : ∀ j f, t.frames[j]? = some f → ∀ l ∈ t.trail.drop f.trail, j < t.lev l := by
    intro j f hj l hl
    rw [hfz.frames, hframes] at hj
    obtain ⟨e, he, hnew⟩ := hg.trail
    rw [htrail, List.append_assoc] at he
    rw [he] at hl
    have hjl : j < s0.frames.length + 1 := by
      have := (List.getElem?_eq_some_iff.1 hj).1
      simpa using this
    have hfl := ht.frames
    have hrest : ∀ x ∈ [lit] ++ e, j < t.lev x := by
      intro x hx
      rcases List.mem_append.1 hx with hx | hx
      · rw [List.mem_singleton.1 hx, hlit.2]; omega
      · rw [hnew x hx]; omega
    rw [List.getElem?_append] at hj
    split at hj
    · have hlt := ht.frame_lt hj
      rw [List.drop_append_of_le_length (by omega)] at hl
      rcases List.mem_append.1 hl with hl | hl
      · have hv := ht.tval l (List.mem_of_mem_drop hl)
        rw [(hkept l (by omega)).2]
        exact h.ordered j f hj l hl
      · exact hrest l hl
    · rename_i hn
      rw [show j - s0.frames.length = 0 by omega] at hj
      cases hj
      rw [List.drop_left] at hl
      exact hrest l hl
  have hR : Raised orig G s0 lit t := by
    refine ⟨hok, hg, hstay.trans ⟨hfz.vars, hfz.removed, hfz.options⟩, hfz.level.trans hlevel,
      hfz.inconsistent.trans (hinc.trans h.consistent), hfz.frames.trans hframes, hord, hkept, hlit,
      ?_, hfz.loose.trans (hlo.trans h.loose)⟩
    intro x hx hl
    have hz : (s0.assume lit).values x ≠ 0 := fun hz => hl (hg.new x hz hx)
    obtain ⟨a, b⟩ := hg.old x hz
    rw [a]
    exact hback x hz (by rw [← b]; exact hl)
  refine ⟨hR, ?_⟩
  cases c with
  | some c => exact hpl
  | none =>
    refine ⟨⟨hok, by rw [hpl.1]; exact hpl.2, ?_, by rw [hpl.1]; exact Nat.le_refl _⟩,
      hR.consistent, hpl.1, hord, hfz.loose.trans (hlo.trans h.loose)⟩
    intro f hf
    obtain ⟨j, hj⟩ := List.mem_iff_getElem?.1 hf
    rw [hpl.1]
    exact Nat.le_of_lt (hok.inv.trail.frame_lt hj)

/-- Backtracking from a conflict. -/
theorem steady_back {t : Solver} (hok : Ok orig G t) (hc : t.inconsistent = false) {k : Nat}
    (hw : Watching t k) (hf : ∀ f ∈ t.frames, f.trail ≤ k)
    (hord : ∀ j f, t.frames[j]? = some f → ∀ l ∈ t.trail.drop f.trail, j < t.lev l) {n : Nat}
    (hn : n < t.level) (hlo : t.loose = false) :
    Steady orig G (t.backtrack n) ∧ Back t n (t.backtrack n) := by
  obtain ⟨h1, h2, h3⟩ := backtrack_ok (n := n) (hok.at (t.level + 1) 0 (Nat.le_refl _))
    (hw.x (fun _ _ => False) (fun _ _ => False)) hf hn (by omega)
  have hP := h2.propInv h3 (fun _ _ h => h.elim) (fun _ _ h => h.elim)
  obtain ⟨f, hb⟩ := hok.inv.trail.backtracked hn
  have htr : (t.backtrack n).trail = t.trail.take f.trail := by
    rw [hb.trail]
    conv => lhs; rw [← List.take_append_drop f.trail t.trail]
    rw [List.filter_append, ← hb.take, List.filter_eq_nil_iff.2, List.append_nil]
    intro l hl
    have := hord n f hb.frame l hl
    simp only [decide_eq_true_eq]; omega
  have hfl := hok.inv.trail.frame_lt hb.frame
  refine ⟨⟨hP, hb.inconsistent.trans hc, ?_, ?_, h1.loose.trans hlo⟩, h1⟩
  · rw [hb.propagate, htr, List.length_take]; omega
  · intro j g hj l hl
    rw [hb.frames, List.getElem?_take] at hj
    split at hj
    · rw [htr] at hl
      rw [hb.lev]
      refine hord j g hj l ?_
      rw [List.drop_take] at hl
      exact List.mem_of_mem_take hl
    · cases hj

/-- Taking the assumption back restores the values. -/
theorem Raised.back {s0 t : Solver} {lit : Nat} (hs : Steady orig G s0)
    (h : Raised orig G s0 lit t) {b : Solver} (hb : Back t s0.level b) :
    ∀ x, b.values x = s0.values x := by
  intro x
  rw [hb.values]
  have ht := hs.prop.ok.inv.trail
  by_cases hx : s0.values x = 0
  · by_cases hx' : t.values x = 0
    · rw [if_neg (fun h => h.1 hx'), hx, hx']
    · have : t.lev x = s0.level + 1 := Classical.byContradiction fun hl =>
        hx' ((h.new x hx' hl).symm.trans hx)
      rw [if_pos ⟨hx', by omega⟩, hx]
  · obtain ⟨a, b⟩ := h.kept x hx
    have := level_le_of ht hx
    rw [if_neg (by omega), a]

/-- Propagation on the root level. -/
theorem probing_root {s : Solver} (h : PropInv orig G s) (hc : s.inconsistent = false) (hlo : s.loose = false)
    (h0 : s.level = 0) :
    Stay s (probingPropagate s).1 ∧ (probingPropagate s).1.level = 0 ∧
    ValuesKept s (probingPropagate s).1 ∧
    match (probingPropagate s).2 with
    | none => Steady orig G (probingPropagate s).1
    | some _ => Ok orig G (probingPropagate s).1 ∧ (probingPropagate s).1.inconsistent = true := by
  have hp := searchPropagate_ok h
  have hg := Growth.loop (adequate_true s) (s.vars + 1) h (.refl _ _)
  have hval : (searchPropagate s).1.values = (propagateLoop (s.vars + 1) s).1.values := by
    unfold searchPropagate
    generalize propagateLoop (s.vars + 1) s = p
    obtain ⟨t, c⟩ := p
    cases c with
    | none => simp only [updateConflictsAndTrail]; split <;> rfl
    | some c => simp only [updateConflictsAndTrail]; split <;> rfl
  unfold probingPropagate
  generalize searchPropagate s = p at hp hval
  obtain ⟨t, c⟩ := p
  obtain ⟨hsame, hok, hlev, hp⟩ := hp
  simp only at hsame hok hlev hp hval ⊢
  refine ⟨⟨hsame.vars, hsame.removed, hsame.options⟩, hlev.trans h0, fun x hx => ?_, ?_⟩
  · show t.values x = s.values x
    rw [hval]; exact (hg.old x hx).1
  · have hok' : Ok orig G { t with conflicts := s.conflicts } :=
      hok.misc t.propagate t.iterating s.conflicts t.decisions t.options
    cases c with
    | some c =>
      simp only at hp ⊢
      rw [if_pos h0] at hp
      exact ⟨hok', hp⟩
    | none =>
      simp only at hp ⊢
      obtain ⟨hP, hfull, hi⟩ := hp
      refine ⟨⟨hok', hP.watching.misc t.propagate t.inconsistent t.iterating s.conflicts t.decisions
        t.proof t.options, hP.frames, hP.le⟩, hi.trans hc, hfull, ?_, hsame.loose.trans hlo⟩
      intro j f hj
      have hfr : t.frames = [] := List.eq_nil_of_length_eq_zero
        (by rw [hok.inv.trail.frames, hlev, h0])
      have hj : t.frames[j]? = some f := hj
      rw [hfr] at hj; simp at hj


/-- Root level values are kept. -/
def RootKept (s s' : Solver) : Prop :=
  ∀ x, s.values x ≠ 0 → s.lev x = 0 → s'.values x = s.values x ∧ s'.lev x = 0

theorem RootKept.trans {s t u : Solver} (h : RootKept s t) (h' : RootKept t u) : RootKept s u :=
  fun x hx hl => by
    obtain ⟨a, b⟩ := h x hx hl
    obtain ⟨a', b'⟩ := h' x (by rw [a]; exact hx) b
    exact ⟨a'.trans a, b'⟩

theorem Raised.rootKept {s0 t : Solver} {lit : Nat} (h : Raised orig G s0 lit t) :
    RootKept s0 t := fun x hx hl => ⟨(h.kept x hx).1, (h.kept x hx).2.trans hl⟩

theorem Raised.valuesKept {s0 t : Solver} {lit : Nat} (h : Raised orig G s0 lit t) :
    ValuesKept s0 t := fun x hx => (h.kept x hx).1

/-- A conflict after an assumption has two literals on the new level. -/
theorem Raised.not_single {s0 t : Solver} {lit : Nat} (hs : Steady orig G s0)
    (h : Raised orig G s0 lit t) {c : Conflict} (hc : ConflictOk t c) {u : Nat}
    (hu : u ∈ t.conflictLits c)
    (hl : ∀ m ∈ t.conflictLits c, m ≠ u → t.lev m ≠ s0.level + 1) : False := by
  have hB := Bound.of_complete hs.prop hs.full hs.strict
  have ht := hs.prop.ok.inv.trail
  have hwatch : (s0.assume lit).watches = s0.watches := by rw [assume_eq]; rfl
  have hclause : ∀ r, (s0.assume lit).clause r = s0.clause r := by
    intro r; unfold Solver.clause; rw [assume_eq]; rfl
  have key : ∀ m, t.values m = -1 → t.lev m ≠ s0.level + 1 → s0.values (neg m) = 1 :=
    fun m hm hl => by
      have := h.new m (by omega) hl
      exact ht.neg_pos.2 (by omega)
  have fin : s0.values u = 1 → t.values u = -1 → False := fun h1 h2 => by
    have := (h.kept u (by omega)).1
    omega
  cases c with
  | large r =>
    obtain ⟨hlive, hfalse⟩ := hc
    obtain ⟨g1, g2⟩ := h.growth.live r hlive
    rw [hclause] at g2
    unfold Solver.Live at g1
    rw [hclause] at g1
    exact fin (hB.large r g1 u (g2.mem_iff.1 hu) fun m hm hne =>
      key m (hfalse m (g2.mem_iff.2 hm)) (hl m (g2.mem_iff.2 hm) hne)) (hfalse u hu)
  | binary a b =>
    obtain ⟨h1, h2, h3⟩ := hc
    have h1 := h.growth.bin a b h1
    rw [hwatch] at h1
    have h1' := (hs.prop.ok.inv.clause.bin a b h1).1
    have hne := (hs.prop.ok.inv.clause.bin a b h1).2.1
    simp only [Solver.conflictLits, List.mem_cons, List.not_mem_nil, or_false] at hu hl
    rcases hu with rfl | rfl
    · exact fin (hB.bin b u h1' (key b h3 (hl b (.inr rfl) hne.symm))) h2
    · exact fin (hB.bin a u h1 (key a h2 (hl a (.inl rfl) hne))) h3

theorem moveHighest_keep (M r i : Nat) (s : Solver) :
    (moveHighest M r i s).values = s.values ∧ (moveHighest M r i s).assigned = s.assigned ∧
    (moveHighest M r i s).frames = s.frames := by
  unfold moveHighest
  simp only
  split
  · exact ⟨rfl, rfl, rfl⟩
  · split <;> exact ⟨rfl, rfl, rfl⟩

/-- Analysis of a conflict after the first assumption learns its negation. -/
theorem Raised.analyze [Deletes orig] {s0 t : Solver} {lit : Nat} (hs : Steady orig G s0)
    (h : Raised orig G s0 lit t) (hz : s0.level = 0) {c : Conflict} (hc : ConflictOk t c)
    {k : Nat} (hw : Watching t k) (hf : ∀ f ∈ t.frames, f.trail ≤ k) :
    ∃ u r, analyze t c = some (u, r) ∧ PropInv orig G u ∧ Stay s0 u ∧ u.inconsistent = false ∧
      u.level = 0 ∧ RootKept s0 u ∧ u.values (neg lit) = 1 ∧ u.loose = false := by
  have ht := h.ok.inv.trail
  have hlev : t.level = 1 := by rw [h.level, hz]
  have hA := AInv.of_conflict h.ok (by omega) hc hw hf
  have hone := oneLiteral_ok hA
  obtain ⟨k', hok, _⟩ := hA.ok
  obtain ⟨hnd, hlen, _⟩ := conflictLits_nodup hok hc
  have hle : ∀ l ∈ t.conflictLits c, t.lev l ≤ t.level := fun l hl => by
    have := ht.levle (neg l) (ht.neg_pos.2 (hA.conf.false l hl))
    rwa [lev_neg] at this
  obtain ⟨M, hsc⟩ := scanConflict_spec (s := t) (lits := t.conflictLits c)
    (by intro e; rw [e] at hlen; simp at hlen) hnd hle
  have hM : M = 1 := by
    have h1 : M ≤ t.level := by rw [← hsc.forced.2]; exact hle _ hsc.forced.1
    apply Classical.byContradiction
    intro hne
    exact h.not_single hs hc hsc.forced.1 fun m hm _ => by
      have := hsc.le m hm; omega
  subst hM
  have hcount : 1 < (scanConflict t (t.conflictLits c) ⟨none, none, 0, 0⟩).count := by
    apply Classical.byContradiction
    intro hn
    exact h.not_single hs hc hsc.forced.1 fun m hm hne => by
      have := (hsc.one (by omega) m hm hne).1; omega
  have key : (oneLiteral t c).2 = .many 1 ∧ (oneLiteral t c).1.values = t.values ∧
      (oneLiteral t c).1.assigned = t.assigned ∧ (oneLiteral t c).1.frames = t.frames := by
    unfold oneLiteral
    simp only [hsc.conflict, Option.getD_some]
    rw [if_neg (by omega), if_pos hcount, if_neg (by omega)]
    cases c with
    | binary a b => exact ⟨rfl, rfl, rfl, rfl⟩
    | large r =>
      simp only
      obtain ⟨a1, a2, a3⟩ := moveHighest_keep 1 r 0 t
      obtain ⟨b1, b2, b3⟩ := moveHighest_keep 1 r 1 (moveHighest 1 r 0 t)
      exact ⟨trivial, b1.trans a1, b2.trans a2, b3.trans a3⟩
  obtain ⟨ke, kv, ka, kf⟩ := key
  have han : Core.analyze t c = some (analyzeFailed (oneLiteral t c).1 c, 0) := by
    unfold Core.analyze
    rw [h.consistent]
    simp only [Bool.false_eq_true, if_false]
    unfold analyzeLoop analyzeStep
    generalize oneLiteral t c = p at ke
    obtain ⟨a, b⟩ := p
    simp only at ke
    subst ke
    rfl
  rw [ke] at hone
  simp only at hone
  obtain ⟨hmany, hl1, hkept, _⟩ := hone
  obtain ⟨⟨f1, f2⟩, f3, f4, f5⟩ := analyzeFailed_full hmany hl1
  have hst := f2.stay
  refine ⟨_, _, han, f1, h.stay.trans (hkept.stay.trans hst),
    f2.inconsistent.trans (hkept.inconsistent.trans h.consistent), f3, ?_, ?_,
    f2.loose.trans (hkept.loose.trans h.loose)⟩
  · intro x hx hl
    obtain ⟨a, b⟩ := h.rootKept x hx hl
    have hv : (analyzeFailed (oneLiteral t c).1 c).values x = s0.values x := by
      rw [f4 x (by rw [kv, a]; exact hx) (by unfold Solver.lev at b ⊢; rw [ka]; exact b), kv, a]
    refine ⟨hv, ?_⟩
    have := level_le_of f1.ok.inv.trail (x := x) (by rw [hv]; exact hx)
    omega
  · have hfr : s0.frames = [] := List.eq_nil_of_length_eq_zero
      (by rw [hs.prop.ok.inv.trail.frames, hz])
    exact f5 ⟨lit, s0.trail.length⟩ (by rw [kf, h.frames, hfr]; rfl)

/-- What one iteration of a loop guarantees. -/
def LStepOk (orig : Base) (G : Assignment → Prop) (s : Solver) (lit : Nat) : LuckyStep → Prop
  | .next s' => Steady orig G s' ∧ Stay s s' ∧ RootKept s s' ∧ (s.level ≠ 0 → ValuesKept s s') ∧
      (∀ x, s.values x ≠ 0 → s'.values x ≠ 0) ∧ s'.values lit ≠ 0
  | .done s' 0 => Steady orig G s' ∧ Stay s s' ∧ RootKept s s' ∧ s'.level = 0
  | .done s' 20 => Stay s s' ∧ (∃ L k, OkAt orig G L k s') ∧ s'.inconsistent = true
  | .done _ _ => False
  | .stuck => False

theorem luckyStep_ok [Deletes orig] {s : Solver} (hs : Steady orig G s) {lit : Nat}
    (h0 : s.values lit = 0) (hval : s.Valid lit) : LStepOk orig G s lit (luckyStep s lit) := by
  have hr := hs.raise h0 hval
  unfold luckyStep
  generalize probingPropagate (s.assume lit) = p at hr
  obtain ⟨t, c⟩ := p
  obtain ⟨hr, hc⟩ := hr
  cases c with
  | none =>
    exact ⟨hc, hr.stay, hr.rootKept, fun _ => hr.valuesKept,
      fun x hx => by have := hr.valuesKept x hx; rw [this]; exact hx,
      by have := hr.lit.1; simp only at this; omega⟩
  | some c =>
    simp only at hr hc ⊢
    obtain ⟨hco, k, hw, hf⟩ := hc
    have hl := hr.level
    by_cases h1 : 1 < t.level
    · rw [if_pos h1]
      have hl' : t.level - 1 = s.level := by omega
      obtain ⟨hb1, hb2⟩ := steady_back hr.ok hr.consistent hw hf hr.ordered
        (n := s.level) (by omega) hr.loose
      rw [hl']
      have hbv := hr.back hs hb2
      generalize t.backtrack s.level = b at hb1 hb2 hbv
      have hbs : Stay s b := hr.stay.trans hb2.kept.stay
      have hbr : RootKept s b := fun x hx hl => ⟨hbv x, by
        rw [hb2.lev]; exact (hr.rootKept x hx hl).2⟩
      have hr2 := hb1.raise (lit := neg lit)
        (by rw [hbv, hs.prop.ok.inv.trail.anti, h0]; rfl)
        (by unfold Solver.Valid; rw [neg_div, hbs.vars, hbs.removed]; exact hval)
      generalize probingPropagate (b.assume (neg lit)) = p at hr2
      obtain ⟨t2, c2⟩ := p
      obtain ⟨hr2, hc2⟩ := hr2
      simp only at hr2 hc2 ⊢
      have hvk : ValuesKept s t2 := fun x hx => by
        have := hr2.valuesKept x (by rw [hbv]; exact hx)
        rw [this, hbv]
      cases c2 with
      | none =>
        refine ⟨hc2, hbs.trans hr2.stay, hbr.trans hr2.rootKept, fun _ => hvk,
          fun x hx => by rw [hvk x hx]; exact hx, ?_⟩
        have := hr2.lit.1
        rw [hr2.ok.inv.trail.anti] at this
        omega
      | some c2 =>
        simp only at hc2 ⊢
        obtain ⟨_, k2, hw2, hf2⟩ := hc2
        obtain ⟨d1, d2⟩ := steady_back hr2.ok hr2.consistent hw2 hf2 hr2.ordered
          (n := 0) (by rw [hr2.level]; omega) hr2.loose
        refine ⟨d1, hbs.trans (hr2.stay.trans d2.kept.stay), (hbr.trans hr2.rootKept).trans ?_,
          d2.level⟩
        intro x hx hl
        rw [d2.values, d2.lev, if_neg (by omega)]
        exact ⟨rfl, hl⟩
    · rw [if_neg h1]
      have hz : s.level = 0 := by omega
      obtain ⟨u, r, ha, hP, hst, hi, hl0, hroot, hlit, hlo⟩ := hr.analyze hs hz hco hw hf
      rw [ha]
      simp only
      obtain ⟨p1, p2, p3, p4⟩ := probing_root hP hi hlo hl0
      generalize probingPropagate u = q at p1 p2 p3 p4
      obtain ⟨v, d⟩ := q
      simp only at p1 p2 p3 p4 ⊢
      cases d with
      | none =>
        simp only at p4 ⊢
        have hvk : ValuesKept s v := fun x hx => by
          have hl := level_le_of hs.prop.ok.inv.trail hx
          have := (hroot x hx (by omega)).1
          rw [p3 x (by rw [this]; exact hx), this]
        refine ⟨p4, hst.trans p1, fun x hx hl => ⟨hvk x hx, ?_⟩, fun _ => hvk,
          fun x hx => by rw [hvk x hx]; exact hx, ?_⟩
        · have := level_le_of p4.prop.ok.inv.trail (x := x) (by rw [hvk x hx]; exact hx)
          omega
        · have := p3 (neg lit) (by omega)
          rw [hlit, p4.prop.ok.inv.trail.anti] at this
          omega
      | some d =>
        simp only at p4 ⊢
        unfold Core.analyze
        rw [p4.2]
        simp only [if_true]
        exact ⟨hst.trans p1, ⟨_, 0, p4.1.at (v.level + 1) 0 (Nat.le_refl _)⟩, p4.2⟩

/-- Outcome of a lucky phase. -/
def LuckyOk (orig : Base) (G : Assignment → Prop) (s : Solver) (Q : Solver → Prop) :
    Option (Solver × Nat) → Prop
  | some (s', 10) => Steady orig G s' ∧ Stay s s' ∧ Q s'
  | some (s', 20) => Stay s s' ∧ (∃ L k, OkAt orig G L k s') ∧ s'.inconsistent = true
  | some (s', 0) => Steady orig G s' ∧ Stay s s' ∧ RootKept s s' ∧ s'.level = 0
  | _ => False

theorem luckyLoop_ok [Deletes orig] (phase : Bool) : ∀ (is : List Import) {s : Solver},
    Steady orig G s →
    (∀ i ∈ is, i.imported = true → i.lit / 2 < s.vars) →
    LuckyOk orig G s (fun s' => (∀ x, s.values x ≠ 0 → s'.values x ≠ 0) ∧
        ∀ i ∈ is, i.imported = true → s.removed (i.lit / 2) = false → s'.values i.lit ≠ 0)
      (luckyLoop phase is s)
  | [], s, hs, _ => ⟨hs, .refl s, fun x h => h, by simp⟩
  | i :: is, s, hs, hb => by
    have hb' : ∀ j ∈ is, j.imported = true → j.lit / 2 < s.vars :=
      fun j hj => hb j (List.mem_cons_of_mem _ hj)
    have ht := hs.prop.ok.inv.trail
    have skip : (i.imported = true → s.removed (i.lit / 2) = false → s.values i.lit ≠ 0) →
        LuckyOk orig G s (fun s' => (∀ x, s.values x ≠ 0 → s'.values x ≠ 0) ∧
          ∀ j ∈ i :: is, j.imported = true → s.removed (j.lit / 2) = false → s'.values j.lit ≠ 0)
          (luckyLoop phase is s) := by
      intro hi
      have := luckyLoop_ok phase is hs hb'
      generalize luckyLoop phase is s = o at this
      unfold LuckyOk at this ⊢
      split <;> simp only at this ⊢
      · obtain ⟨a, b, c, d⟩ := this
        refine ⟨a, b, c, fun j hj hjm hjr => ?_⟩
        rcases List.mem_cons.1 hj with rfl | hj
        · exact c _ (hi hjm hjr)
        · exact d j hj hjm hjr
      · exact this
      · exact this
    unfold luckyLoop
    by_cases h1 : (!i.imported) = true
    · rw [if_pos h1]
      exact skip fun h => by simp [h] at h1
    rw [if_neg h1]
    by_cases h2 : (!s.isActive (i.lit / 2)) = true
    · rw [if_pos h2]
      refine skip fun _ hr hz => ?_
      have : s.values (2 * (i.lit / 2)) = 0 := ht.zero_of_div (by omega) hz
      simp [Solver.isActive, hr, this] at h2
    rw [if_neg h2]
    by_cases h3 : s.values i.lit ≠ 0
    · rw [if_pos h3]; exact skip fun _ _ => h3
    rw [if_neg h3]
    have h3 : s.values i.lit = 0 := Classical.byContradiction h3
    have him : i.imported = true := by simpa using h1
    have hact : s.isActive (i.lit / 2) = true := by simpa using h2
    have hval : s.Valid i.lit := by
      refine ⟨hb i List.mem_cons_self him, ?_⟩
      unfold Solver.isActive at hact
      simp only [Bool.and_eq_true, Bool.not_eq_true'] at hact
      exact hact.1
    have hst : ∀ l, l / 2 = i.lit / 2 → LStepOk orig G s l (luckyStep s l) := fun l hl => by
      refine luckyStep_ok hs ?_ ?_
      · exact ht.zero_of_div hl.symm h3
      · unfold Solver.Valid; rw [hl]; exact hval
    have hst := hst (if phase then i.lit else neg i.lit) (by split <;> simp [neg_div])
    have hlit : ∀ s' : Solver, TrailInv s' →
        s'.values (if phase then i.lit else neg i.lit) ≠ 0 → s'.values i.lit ≠ 0 := by
      intro s' ht' h hz
      apply h
      split
      · exact hz
      · rw [ht'.anti, hz]; rfl
    generalize luckyStep s (if phase then i.lit else neg i.lit) = st at hst
    cases st with
    | stuck => exact hst
    | done s' res =>
      simp only
      unfold LStepOk at hst
      unfold LuckyOk
      split at hst <;> simp_all
    | next s' =>
      simp only
      obtain ⟨a, b, c, d, e, f⟩ := hst
      have hrec := luckyLoop_ok phase is a fun j hj hjm => by rw [b.vars]; exact hb' j hj hjm
      generalize luckyLoop phase is s' = o at hrec
      unfold LuckyOk at hrec ⊢
      split <;> simp only at hrec ⊢
      · obtain ⟨g1, g2, g3, g4⟩ := hrec
        refine ⟨g1, b.trans g2, fun x hx => g3 x (e x hx), fun j hj hjm hjr => ?_⟩
        rcases List.mem_cons.1 hj with rfl | hj
        · exact g3 _ (hlit s' a.prop.ok.inv.trail f)
        · exact g4 j hj hjm (by rw [b.removed]; exact hjr)
      · exact ⟨b.trans hrec.1, hrec.2⟩
      · exact ⟨hrec.1, b.trans hrec.2.1, c.trans hrec.2.2.1, hrec.2.2.2⟩

theorem phaseLit_div (phase : Bool) (v : Nat) : phaseLit phase v / 2 = v := by
  unfold phaseLit; split <;> omega

theorem phaseLit_true (phase : Bool) (v : Nat) (σ : Assignment) :
    litTrue σ (phaseLit phase v) ↔ σ v = phase := by
  unfold litTrue
  rw [phaseLit_div]
  unfold phaseLit
  cases phase
  · simp
  · simp

theorem phaseLit_cases (phase : Bool) (l : Nat) :
    l = phaseLit phase (l / 2) ∨ l = phaseLit (!phase) (l / 2) := by
  unfold phaseLit
  cases phase <;> simp <;> omega

/-- Bound given by an assignment satisfying all clauses. -/
theorem Bound.of_model {s : Solver} {σ : Assignment} (hF : SatFormula σ s.formula)
    (hv : ∀ x, s.values x = 1 → litTrue σ x) : Bound (litTrue σ) s := by
  refine ⟨hv, ?_, ?_, ?_⟩
  · intro r hr u hu hm
    obtain ⟨l, hl, ht⟩ := hF _ (.inl ⟨r, hr, rfl⟩)
    by_cases e : l = u
    · rw [← e]; exact ht
    · exact absurd ht ((litTrue_neg σ l).1 (hm l hl e))
  · intro a b hab ha
    obtain ⟨l, hl, ht⟩ := hF _ (.inr (.inl ⟨a, b, hab, rfl⟩))
    simp only [List.mem_cons, List.not_mem_nil, or_false] at hl
    rcases hl with rfl | rfl
    · exact absurd ht ((litTrue_neg σ l).1 ha)
    · exact ht
  · intro x h1 h2
    exact (litTrue_neg σ x).1 h2 h1

/-- The assignment with `phase` for all variables not assigned in `s`. -/
def phaseModel (phase : Bool) (s : Solver) : Assignment := fun v =>
  if s.values (2 * v) = 1 then true else if s.values (2 * v) = -1 then false else phase

theorem phaseModel_true {s : Solver} (ht : TrailInv s) (phase : Bool) {l : Nat}
    (hl : s.values l = 1) : litTrue (phaseModel phase s) l := by
  unfold litTrue
  rcases Nat.mod_two_eq_zero_or_one l with e | e
  · have : 2 * (l / 2) = l := by omega
    simp only [phaseModel, this, hl, e]; rfl
  · have : 2 * (l / 2) = neg l := by unfold neg; rw [if_neg (by omega)]; omega
    simp only [phaseModel, this, ht.anti, hl, e]; rfl

theorem phaseModel_phase {s : Solver} (ht : TrailInv s) {phase : Bool} {l : Nat}
    (hl : 0 ≤ s.values l) (hp : l = phaseLit phase (l / 2)) : litTrue (phaseModel phase s) l := by
  rcases ht.dom l with h | h | h
  · exact phaseModel_true ht phase h
  · rw [hp, phaseLit_true]
    have : s.values (2 * (l / 2)) = 0 := ht.zero_of_div (by omega) h
    simp [phaseModel, this]
  · omega

/-- If there is no clause with literals of the opposite phase only, then all
irredundant clauses are satisfied. -/
theorem noAllOpposite_sat {s : Solver} (hs : Steady orig G s) {phase : Bool}
    (h : noAllOpposite phase s = true) : SatFormula (phaseModel phase s) s.irr := by
  have ht := hs.prop.ok.inv.trail
  have hB := Bound.of_complete hs.prop hs.full hs.strict
  unfold noAllOpposite at h
  rw [Bool.and_eq_true, List.all_eq_true, List.all_eq_true] at h
  obtain ⟨hlarge, hbin⟩ := h
  intro c hc
  rcases hc with ⟨r, hr, hred, rfl⟩ | ⟨a, b, hab, rfl⟩ | ⟨l, hl, _, rfl⟩
  · have hm : s.clause r ∈ s.arena := clause_mem (clause_lt hr)
    have := hlarge _ hm
    rw [hred, hr] at this
    simp only [Bool.false_or, List.any_eq_true, Bool.and_eq_true, beq_iff_eq,
      decide_eq_true_eq] at this
    obtain ⟨l, hl, hp, hv⟩ := this
    exact ⟨l, hl, phaseModel_phase ht hv hp⟩
  · obtain ⟨hba, _, _, hva, hvb⟩ := hs.prop.ok.inv.clause.bin a b hab
    rcases ht.dom a with ha | ha | ha
    · exact ⟨a, by simp, phaseModel_true ht _ ha⟩
    · rcases ht.dom b with hb | hb | hb
      · exact ⟨b, by simp, phaseModel_true ht _ hb⟩
      · rcases phaseLit_cases phase a with pa | pa
        · exact ⟨a, by simp, phaseModel_phase ht (by omega) pa⟩
        rcases phaseLit_cases phase b with pb | pb
        · exact ⟨b, by simp, phaseModel_phase ht (by omega) pb⟩
        have act : ∀ x, s.Valid x → s.values x = 0 → s.isActive (x / 2) = true := by
          intro x hx h0
          have : s.values (2 * (x / 2)) = 0 := ht.zero_of_div (by omega) h0
          simp [Solver.isActive, hx.2, this]
        have h1 := hbin (a / 2) (List.mem_range.2 hva.1)
        rw [act a hva ha, ← pa] at h1
        simp only [Bool.not_true, Bool.false_or, List.all_eq_true] at h1
        have h2 := h1 _ hab
        simp only at h2
        rw [act b hvb hb, ← pb] at h2
        simp at h2
      · exact ⟨a, by simp, phaseModel_true ht _ (hB.bin b a hba (ht.neg_pos.2 hb))⟩
    · exact ⟨b, by simp, phaseModel_true ht _ (hB.bin a b hab (ht.neg_pos.2 ha))⟩
  · exact ⟨l, by simp, phaseModel_true ht _ hl⟩

theorem assumeAll_ok {σ : Assignment} {phase : Bool} : ∀ (vs : List Nat) {s : Solver},
    Steady orig G s → Bound (litTrue σ) s → (∀ v ∈ vs, v < s.vars) →
    (∀ v ∈ vs, s.values (2 * v) = 0 → σ v = phase) →
    Steady orig G (assumeAll phase vs s) ∧ Stay s (assumeAll phase vs s) ∧
      (∀ x, s.values x ≠ 0 → (assumeAll phase vs s).values x ≠ 0) ∧
      ∀ v ∈ vs, s.removed v = false → (assumeAll phase vs s).values (2 * v) ≠ 0
  | [], s, hs, _, _, _ => ⟨hs, .refl s, fun _ h => h, by simp⟩
  | v :: vs, s, hs, hb, hv, hσ => by
    have ht := hs.prop.ok.inv.trail
    have hv' : ∀ w ∈ vs, w < s.vars := fun w hw => hv w (List.mem_cons_of_mem _ hw)
    have skip : (s.removed v = false → s.values (2 * v) ≠ 0) →
        Steady orig G (assumeAll phase vs s) ∧ Stay s (assumeAll phase vs s) ∧
        (∀ x, s.values x ≠ 0 → (assumeAll phase vs s).values x ≠ 0) ∧
        ∀ w ∈ v :: vs, s.removed w = false → (assumeAll phase vs s).values (2 * w) ≠ 0 := by
      intro h
      obtain ⟨a, b, c, d⟩ := assumeAll_ok vs hs hb hv' fun w hw => hσ w (List.mem_cons_of_mem _ hw)
      refine ⟨a, b, c, fun w hw hr => ?_⟩
      rcases List.mem_cons.1 hw with rfl | hw
      · exact c _ (h hr)
      · exact d w hw hr
    unfold assumeAll
    by_cases h1 : (!s.isActive v) = true
    · rw [if_pos h1]
      exact skip fun hr hz => by simp [Solver.isActive, hr, hz] at h1
    rw [if_neg h1]
    by_cases h2 : s.values (2 * v) ≠ 0
    · rw [if_pos h2]; exact skip fun _ => h2
    rw [if_neg h2]
    have h2 : s.values (2 * v) = 0 := Classical.byContradiction h2
    have hact : s.isActive v = true := by simpa using h1
    have hrem : s.removed v = false := by
      unfold Solver.isActive at hact
      simp only [Bool.and_eq_true, Bool.not_eq_true'] at hact
      exact hact.1
    have h0 : s.values (phaseLit phase v) = 0 :=
      ht.zero_of_div (by rw [phaseLit_div]; omega) h2
    have hval : s.Valid (phaseLit phase v) := by
      unfold Solver.Valid; rw [phaseLit_div]; exact ⟨hv v List.mem_cons_self, hrem⟩
    have hr := hs.raise h0 hval
    have h1 := hs.prop.assume hs.full h0 hval
    have hba : Bound (litTrue σ) (s.assume (phaseLit phase v)) := by
      refine hb.congr ?_ ?_ ?_
      · intro x hx
        rw [assume_values] at hx
        split at hx
        · omega
        · split at hx
          · rename_i e; rw [e, phaseLit_true]; exact hσ v List.mem_cons_self h2
          · exact hb.val x hx
      · intro r hr
        have hc : (s.assume (phaseLit phase v)).clause r = s.clause r := by
          unfold Solver.clause; rw [assume_eq]; rfl
        unfold Solver.Live at hr
        rw [hc] at hr ⊢
        exact ⟨hr, .refl _⟩
      · intro a b hab
        rw [assume_eq] at hab; exact hab
    have hlp := Bound.loop ((s.assume (phaseLit phase v)).vars + 1) h1 hba
    rw [← probing_pos h1 (by rw [assume_eq]; simp)] at hlp
    generalize probingPropagate (s.assume (phaseLit phase v)) = p at hr hlp
    obtain ⟨t, c⟩ := p
    obtain ⟨hbt, hnone⟩ := hlp
    simp only at hnone hbt hr ⊢
    subst hnone
    obtain ⟨hr, hst⟩ := hr
    simp only at hst
    have hnz : ∀ x, s.values x ≠ 0 → t.values x ≠ 0 := fun x hx => by
      rw [hr.valuesKept x hx]; exact hx
    obtain ⟨a, b, c, d⟩ := assumeAll_ok vs hst hbt
      (fun w hw => by rw [hr.stay.vars]; exact hv' w hw) fun w hw hz =>
        hσ w (List.mem_cons_of_mem _ hw) (Classical.byContradiction fun h => hnz _ h hz)
    refine ⟨a, hr.stay.trans b, fun x hx => c x (hnz x hx), fun w hw hrm => ?_⟩
    rcases List.mem_cons.1 hw with rfl | hw
    · refine c _ fun hz => ?_
      have h3 := hr.lit.1
      have := hst.prop.ok.inv.trail.zero_of_div
        (show 2 * w / 2 = phaseLit phase w / 2 by rw [phaseLit_div]; omega) hz
      omega
    · exact d w hw (by rw [hr.stay.removed]; exact hrm)

/-- All variables in use are assigned. -/
def AllAssigned (s : Solver) : Prop := ∀ v, v < s.vars → s.removed v = false → s.values (2 * v) ≠ 0

theorem AllAssigned.unassigned {s : Solver} (h : AllAssigned s) (ht : TrailInv s) :
    s.unassigned = 0 := by
  rw [ht.count, List.length_eq_zero_iff, List.eq_nil_iff_forall_not_mem]
  intro v hv
  rw [free_mem] at hv
  exact h v hv.1 hv.2.1 hv.2.2

theorem LuckyOk.mono {s s' : Solver} {Q Q' : Solver → Prop} {r : Option (Solver × Nat)}
    (h : LuckyOk orig G s' Q r) (hst : Stay s s') (hk : RootKept s s')
    (hQ : ∀ t, Steady orig G t → Stay s t → Q t → Q' t) : LuckyOk orig G s Q' r := by
  unfold LuckyOk at h ⊢
  split <;> simp only at h ⊢
  · exact ⟨h.1, hst.trans h.2.1, hQ _ h.1 (hst.trans h.2.1) h.2.2⟩
  · exact ⟨hst.trans h.1, h.2⟩
  · exact ⟨h.1, hst.trans h.2.1, hk.trans h.2.2.1, h.2.2.2⟩

theorem lucky_ok [Deletes orig] {s : Solver} (hs : Steady orig G s) (h0 : s.level = 0)
    (hG : ∀ σ, G σ → SatFormula σ s.formula) {imports : List Import}
    (hfwd : ∀ i ∈ imports, i.imported = true → i.lit / 2 < s.vars)
    (hbwd : ∀ v, v < s.vars → s.removed v = false → ∃ i ∈ imports, i.imported = true ∧ i.lit / 2 = v)
    (enabled : Bool) : LuckyOk orig G s AllAssigned (lucky enabled imports s) := by
  have same : LuckyOk orig G s AllAssigned (some (s, 0)) :=
    ⟨hs, .refl s, fun x _ hl => ⟨rfl, hl⟩, h0⟩
  have hroot : RootKept s s := fun x _ hl => ⟨rfl, hl⟩
  have all : ∀ phase, noAllOpposite phase s = true →
      LuckyOk orig G s AllAssigned (some (assumeAll phase (List.range s.vars) s, 10)) := by
    intro phase h
    have hF := hG _ (hs.prop.ok.irr _ (noAllOpposite_sat hs h))
    obtain ⟨a, b, _, d⟩ := assumeAll_ok (phase := phase) (List.range s.vars) hs
      (Bound.of_model hF fun x hx => phaseModel_true hs.prop.ok.inv.trail phase hx)
      (fun v hv => List.mem_range.1 hv) (fun v _ hz => by simp [phaseModel, hz])
    refine ⟨a, b, fun v hv hr => d v ?_ ?_⟩
    · rw [b.vars] at hv; exact List.mem_range.2 hv
    · rw [b.removed] at hr; exact hr
  have loop : ∀ (phase : Bool) (is : List Import), (∀ i, i ∈ is ↔ i ∈ imports) →
      ∀ s', Steady orig G s' → Stay s s' → RootKept s s' →
      LuckyOk orig G s AllAssigned (luckyLoop phase is s') := by
    intro phase is his s' hs' hst hk
    refine (luckyLoop_ok phase is hs' fun i hi => ?_).mono hst hk ?_
    · rw [hst.vars]; exact hfwd i ((his i).1 hi)
    · rintro t hts ht ⟨_, hall⟩ v hv hr hz
      rw [ht.vars] at hv
      rw [ht.removed] at hr
      obtain ⟨i, hi, him, hl⟩ := hbwd v hv hr
      refine hall i ((his i).2 hi) him ?_ (hts.prop.ok.inv.trail.zero_of_div (by omega) hz)
      rw [hst.removed, hl]; exact hr
  have step : ∀ (r : Option (Solver × Nat)) (phase : Bool) (is : List Import),
      (∀ i, i ∈ is ↔ i ∈ imports) → LuckyOk orig G s AllAssigned r →
      LuckyOk orig G s AllAssigned (orElse r (luckyLoop phase is)) := by
    intro r phase is his hr
    match r, hr with
    | none, hr => exact hr
    | some (s', res), hr =>
      unfold orElse
      simp only
      by_cases hz : res = 0
      · subst hz
        rw [if_pos rfl]
        obtain ⟨g1, g2, g3, _⟩ := hr
        exact loop phase is his s' g1 g2 g3
      · rw [if_neg hz]; exact hr
  unfold lucky
  rw [hs.consistent]
  simp only [Bool.false_eq_true, if_false]
  split
  · exact same
  · split
    · rename_i h; exact all true h
    · split
      · rename_i h; exact all false h
      · exact step _ _ _ (fun i => List.mem_reverse) (step _ _ _ (fun i => List.mem_reverse)
          (step _ _ _ (fun i => .rfl) (loop false imports (fun i => .rfl) s hs (.refl s) hroot)))
end

end Verif.Core
