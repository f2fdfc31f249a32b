import Verif.Model.Simp.Vivify
import Verif.Proofs.Simp.Backbone

/-!
# Vivification: trails and analysis
-/

namespace Verif.Simp

open Verif.Spec Verif.Model Verif.Model.Extend

/-! ## Trails -/

/-- Implication over several binary clauses. -/
inductive Chain (s : State) : Nat → Nat → Prop
  | one {a b : Nat} : s.Implication a b → Chain s a b
  | step {a b c : Nat} : s.Implication a b → Chain s b c → Chain s a c

theorem Chain.trans {s : State} {a b c : Nat} (h : Chain s a b) (h' : Chain s b c) : Chain s a c := by
  induction h with
  | one h => exact .step h h'
  | step h _ ih => exact .step h (ih h')

/-- `F` has all binary clauses. -/
def HasBinaries (s : State) (F : Formula) : Prop :=
  ∀ r, (s.clause r).garbage = false → (s.clause r).redundant = false → (s.clause r).lits.length = 2 → F (s.clause r).lits

theorem Chain.up {s : State} {F : Formula} (hF : HasBinaries s F) {A : Nat → Prop} {a b : Nat} (h : Chain s a b)
    (ha : UP F A a) : UP F A b := by
  have one : ∀ {a b : Nat}, s.Implication a b → UP F A a → UP F A b := fun h ha => by
    obtain ⟨r, h1, h2, h3, h4, h5, h6⟩ := h
    exact up_binary (hF r h1 h2 h3) h3 h4 h5 h6 ha
  induction h with
  | one h => exact one h ha
  | step h _ ih => exact ih (one h ha)

theorem Chain.mono {s s' : State} (hs : ∀ a b, s.Implication a b → s'.Implication a b) {a b : Nat} (h : Chain s a b) :
    Chain s' a b := by
  induction h with
  | one h => exact .one (hs _ _ h)
  | step h _ ih => exact .step (hs _ _ h) ih

/-- The literal is on the trail at this level or below. -/
def On (T : List VEntry) (m k : Nat) : Prop := ∃ e ∈ T, e.lit = m ∧ e.level ≤ k

/-- The reason of an entry, given the older entries. -/
def Valid (s : State) (T : List VEntry) (e : VEntry) : Prop :=
  match e.reason with
  | .decision => True
  | .binary o => Chain s (neg o) e.lit ∧ On T (neg o) e.level
  | .clause r => (s.clause r).garbage = false ∧ e.lit ∈ (s.clause r).lits ∧
      ∀ m ∈ (s.clause r).lits, m ≠ e.lit → s.values m < 0 ∨ On T (neg m) e.level

/-- Trails, newest entry first. -/
inductive VT (s : State) : List VEntry → Prop
  | nil : VT s []
  | cons {e : VEntry} {T : List VEntry} : VT s T → s.values e.lit = 0 → s.InRange e.lit → s.removed (e.lit / 2) = false →
      1 ≤ e.level → (∀ e' ∈ T, e'.lit / 2 ≠ e.lit / 2) → Valid s T e → VT s (e :: T)

theorem VT.free {s : State} {T : List VEntry} (h : VT s T) : ∀ e ∈ T, s.values e.lit = 0 ∧ s.InRange e.lit ∧
    s.removed (e.lit / 2) = false ∧ 1 ≤ e.level := by
  induction h with
  | nil => intro e he; cases he
  | cons _ h1 h2 h3 h4 _ _ ih =>
    intro e he
    rcases List.mem_cons.1 he with rfl | he
    · exact ⟨h1, h2, h3, h4⟩
    · exact ih e he

theorem VT.inj {s : State} {T : List VEntry} (h : VT s T) : ∀ e ∈ T, ∀ e' ∈ T, e.lit / 2 = e'.lit / 2 → e = e' := by
  induction h with
  | nil => intro e he; cases he
  | cons _ _ _ _ _ h5 _ ih =>
    intro e he e' he' hd
    rcases List.mem_cons.1 he with h1 | h1 <;> rcases List.mem_cons.1 he' with h2 | h2
    · rw [h1, h2]
    · rw [h1] at hd; exact absurd hd.symm (h5 e' h2)
    · rw [h2] at hd; exact absurd hd (h5 e h1)
    · exact ih e h1 e' h2 hd

theorem Valid.weaken {s : State} {T T' : List VEntry} {e : VEntry} (h : Valid s T e) (hT : ∀ x ∈ T, x ∈ T') : Valid s T' e := by
  have hon : ∀ {m k : Nat}, On T m k → On T' m k := fun ⟨x, h1, h2⟩ => ⟨x, hT x h1, h2⟩
  unfold Valid at h ⊢
  cases hr : e.reason with
  | decision => trivial
  | binary o => rw [hr] at h; exact ⟨h.1, hon h.2⟩
  | clause r => rw [hr] at h; exact ⟨h.1, h.2.1, fun m hm hne => (h.2.2 m hm hne).imp_right hon⟩

theorem VT.valid {s : State} {T : List VEntry} (h : VT s T) : ∀ e ∈ T, Valid s T e := by
  induction h with
  | nil => intro e he; cases he
  | cons _ _ _ _ _ _ h6 ih =>
    intro e he
    rcases List.mem_cons.1 he with rfl | he
    · exact h6.weaken fun x hx => List.mem_cons_of_mem _ hx
    · exact (ih e he).weaken fun x hx => List.mem_cons_of_mem _ hx

theorem On.filter {T : List VEntry} {m k j : Nat} (h : On T m j) (hj : j ≤ k) : On (T.filter fun e => e.level ≤ k) m j := by
  obtain ⟨e, h1, h2, h3⟩ := h
  exact ⟨e, List.mem_filter.2 ⟨h1, by simp; omega⟩, h2, h3⟩

theorem Valid.filter {s : State} {T : List VEntry} {e : VEntry} (h : Valid s T e) {k : Nat} (hk : e.level ≤ k) :
    Valid s (T.filter fun e => e.level ≤ k) e := by
  unfold Valid at h ⊢
  cases hr : e.reason with
  | decision => trivial
  | binary o => rw [hr] at h; exact ⟨h.1, h.2.filter hk⟩
  | clause r => rw [hr] at h; exact ⟨h.1, h.2.1, fun m hm hne => (h.2.2 m hm hne).imp_right fun h => h.filter hk⟩

theorem VT.filter {s : State} {T : List VEntry} (h : VT s T) (k : Nat) : VT s (T.filter fun e => e.level ≤ k) := by
  induction h with
  | nil => exact .nil
  | @cons e T _ h1 h2 h3 h4 h5 h6 ih =>
    by_cases c : e.level ≤ k
    · rw [List.filter_cons_of_pos (by simpa using c)]
      exact .cons ih h1 h2 h3 h4 (fun e' he' => h5 e' (List.mem_filter.1 he').1) (h6.filter c)
    · rw [List.filter_cons_of_neg (by simpa using c)]; exact ih

/-- What may happen to the clauses while there are assumptions. -/
structure Compat (s s' : State) (T : List VEntry) : Prop where
  exports : s'.exports = s.exports
  removed : s'.removed = s.removed
  neg : ∀ l, s.values l < 0 → s'.values l < 0
  free : ∀ e ∈ T, s'.values e.lit = 0
  reason : ∀ e ∈ T, ∀ r, e.reason = .clause r → (s.clause r).garbage = false →
    (s'.clause r).garbage = false ∧ (s'.clause r).lits = (s.clause r).lits
  impl : ∀ a b, s.Implication a b → s'.Implication a b

theorem VT.compat {s s' : State} {T : List VEntry} (h : VT s T) (hc : Compat s s' T) : VT s' T := by
  induction h with
  | nil => exact .nil
  | @cons e T _ h1 h2 h3 h4 h5 h6 ih =>
    refine .cons (ih ⟨hc.exports, hc.removed, hc.neg, fun e he => hc.free e (List.mem_cons_of_mem _ he),
      fun e he => hc.reason e (List.mem_cons_of_mem _ he), hc.impl⟩) (hc.free e (by simp)) ?_ ?_ h4 h5 ?_
    · unfold State.InRange at h2 ⊢; rw [hc.exports]; exact h2
    · rw [hc.removed]; exact h3
    · unfold Valid at h6 ⊢
      cases hr : e.reason with
      | decision => trivial
      | binary o => rw [hr] at h6; exact ⟨h6.1.mono hc.impl, h6.2⟩
      | clause r =>
        rw [hr] at h6
        obtain ⟨c1, c2⟩ := hc.reason e (by simp) r hr h6.1
        dsimp only
        rw [c2]
        exact ⟨c1, h6.2.1, fun m hm hne => (h6.2.2 m hm hne).imp_left (hc.neg m)⟩

/-! ## Values -/

theorem entry_some {p : VState} {l : Nat} {e : VEntry} (h : p.entry l = some e) : e ∈ p.trail ∧ e.lit = l :=
  ⟨List.mem_of_find?_eq_some h, by simpa using List.find?_some h⟩

theorem entry_mem {p : VState} (h : VT p.s p.trail) {e : VEntry} (he : e ∈ p.trail) : p.entry e.lit = some e := by
  cases hf : p.entry e.lit with
  | none => simpa using List.find?_eq_none.1 hf e he
  | some e' =>
    obtain ⟨h1, h2⟩ := entry_some hf
    rw [h.inj e' h1 e he (by rw [h2])]

theorem entry_none {p : VState} {l : Nat} (h : p.entry l = none) : ∀ e ∈ p.trail, e.lit ≠ l := fun e he => by
  simpa using List.find?_eq_none.1 h e he

theorem levelOf_pos {p : VState} (h : VT p.s p.trail) {m : Nat} : p.levelOf m ≠ 0 ↔ ∃ e ∈ p.trail, e.lit = neg m := by
  unfold VState.levelOf
  constructor
  · intro hl
    cases he : p.entry (neg m) with
    | none => rw [he] at hl; exact absurd rfl hl
    | some e => exact ⟨e, entry_some he⟩
  · rintro ⟨e, he, hm⟩
    rw [← hm, entry_mem h he]
    have := (h.free e he).2.2.2
    dsimp only; omega

theorem value_eq {p : VState} (l : Nat) : p.value l = if (∃ e ∈ p.trail, e.lit = l) then 1 else
    if (∃ e ∈ p.trail, e.lit = neg l) then -1 else p.s.values l := by
  have key : ∀ m, (p.entry m).isSome = true ↔ ∃ e ∈ p.trail, e.lit = m := fun m => by
    unfold VState.entry
    rw [List.find?_isSome]
    simp
  unfold VState.value
  by_cases c1 : ∃ e ∈ p.trail, e.lit = l
  · rw [if_pos c1, if_pos ((key l).2 c1)]
  · rw [if_neg c1, if_neg (fun h => c1 ((key l).1 h))]
    by_cases c2 : ∃ e ∈ p.trail, e.lit = neg l
    · rw [if_pos c2, if_pos ((key _).2 c2)]
    · rw [if_neg c2, if_neg (fun h => c2 ((key _).1 h))]

theorem value_root {orig : List (List Nat)} {p : VState} (hs : Struct orig p.s) (h : VT p.s p.trail) {l : Nat} (hv : p.s.values l ≠ 0) : p.value l = p.s.values l := by
  rw [value_eq, if_neg, if_neg]
  · rintro ⟨e, he, hl⟩
    have := (h.free e he).1
    rw [hl, hs.neg] at this; omega
  · rintro ⟨e, he, hl⟩
    have := (h.free e he).1
    rw [hl] at this; exact hv this

theorem value_unassigned {p : VState} {l : Nat} (hv : p.value l = 0) :
    p.s.values l = 0 ∧ ∀ e ∈ p.trail, e.lit / 2 ≠ l / 2 := by
  rw [value_eq] at hv
  split at hv
  · cases hv
  · rename_i c1
    split at hv
    · cases hv
    · rename_i c2
      refine ⟨hv, fun e he hd => ?_⟩
      rcases eq_or_eq_neg hd with h | h
      · exact c1 ⟨e, he, h⟩
      · exact c2 ⟨e, he, h⟩

theorem value_false {p : VState} {l : Nat} (hv : p.value l < 0) : p.s.values l < 0 ∨ ∃ e ∈ p.trail, e.lit = neg l := by
  rw [value_eq] at hv
  split at hv
  · cases hv
  · split at hv
    · rename_i c2; exact Or.inr c2
    · exact Or.inl hv

/-! ## Invariant -/

structure VInv (orig : List (List Nat)) (p : VState) : Prop where
  inv : Inv orig none p.s
  trail : VT p.s p.trail
  dec : ∀ e ∈ p.trail, e.reason = .decision → e.level ≤ p.level
  uniq : ∀ e ∈ p.trail, ∀ e' ∈ p.trail, e.reason = .decision → e'.reason = .decision → e.level = e'.level → e = e'

/-- The clause is not a reason. -/
def NotReason (cand : Nat) (T : List VEntry) : Prop := ∀ e ∈ T, e.reason ≠ .clause cand

theorem VInv.backtrack {orig : List (List Nat)} {p : VState} (h : VInv orig p) (k : Nat) : VInv orig (p.backtrack k) := by
  refine ⟨h.inv, h.trail.filter k, fun e he hd => ?_, fun e he e' he' => ?_⟩
  · obtain ⟨h1, h2⟩ := List.mem_filter.1 he
    have := h.dec e h1 hd
    have h2 : e.level ≤ k := by simpa using h2
    exact Nat.le_min.2 ⟨this, h2⟩
  · exact h.uniq e (List.mem_filter.1 he).1 e' (List.mem_filter.1 he').1

theorem VInv.empty {orig : List (List Nat)} {s : State} (h : Inv orig none s) : VInv orig ⟨s, [], 0⟩ :=
  ⟨h, .nil, fun _ he => (by cases he), fun _ he => (by cases he)⟩

theorem VInv.assume {orig : List (List Nat)} {p : VState} (h : VInv orig p) {l : Nat} (hv : p.value l = 0) (hr : p.s.InRange l)
    (hrem : p.s.removed (l / 2) = false) : VInv orig (p.assume l) := by
  obtain ⟨v1, v2⟩ := value_unassigned hv
  refine ⟨h.inv, .cons h.trail v1 hr hrem (Nat.le_add_left 1 _) v2 trivial, fun e he hd => ?_, fun e he e' he' h1 h2 h3 => ?_⟩
  · rcases List.mem_cons.1 he with rfl | he
    · exact Nat.le_refl _
    · exact Nat.le_succ_of_le (h.dec e he hd)
  · rcases List.mem_cons.1 he with q1 | q1 <;> rcases List.mem_cons.1 he' with q2 | q2
    · rw [q1, q2]
    · have := h.dec e' q2 h2
      rw [q1] at h3; dsimp only at h3; omega
    · have := h.dec e q1 h1
      rw [q2] at h3; dsimp only at h3; omega
    · exact h.uniq e q1 e' q2 h1 h2 h3

/-! ## Propagation -/

theorem compat_unit {orig : List (List Nat)} {s : State} (h : Struct orig s) {T : List VEntry} (hT : VT s T) {u : Nat}
    (hu : s.values u = 0) (hv : ∀ e ∈ T, e.lit / 2 ≠ u / 2) : Compat s (s.learnedUnit u) T := by
  have hg := grow_unit (V := fun _ => True) h hu trivial trivial
  refine ⟨rfl, rfl, fun l hl => ?_, fun e he => ?_, fun _ _ _ _ hr => ⟨hr, rfl⟩, fun _ _ h => h⟩
  · rw [hg.keep l (by omega)]; exact hl
  · have := hv e he
    rw [values_learned, if_neg (by rintro rfl; exact this rfl), if_neg (by intro e; rw [e, neg_div] at this; exact this rfl)]
    exact (hT.free e he).1

theorem foldl_max_le (l : List Nat) : ∀ (a : Nat), a ≤ l.foldl max a ∧ ∀ x ∈ l, x ≤ l.foldl max a := by
  induction l with
  | nil => exact fun a => ⟨Nat.le_refl _, fun _ h => (by cases h)⟩
  | cons b l ih =>
    intro a
    obtain ⟨h1, h2⟩ := ih (max a b)
    rw [List.foldl_cons]
    refine ⟨by omega, fun x hx => ?_⟩
    rcases List.mem_cons.1 hx with rfl | hx
    · omega
    · exact h2 x hx

theorem foldl_max_zero (l : List Nat) (h : ∀ x ∈ l, x = 0) : l.foldl max 0 = 0 := by
  induction l with
  | nil => rfl
  | cons b l ih =>
    rw [List.foldl_cons, h b (by simp)]
    exact ih fun x hx => h x (List.mem_cons_of_mem _ hx)

/-- What propagation keeps. -/
structure Moved (orig : List (List Nat)) (cand : Nat) (p p' : VState) : Prop where
  inv : VInv orig p'
  pres : Preserves p.s p'.s
  not : NotReason cand p'.trail
  level : p'.level = p.level
  arena : p'.s.arena = p.s.arena
  exports : p'.s.exports = p.s.exports
  removed : p'.s.removed = p.s.removed
  neg : ∀ l, p.s.values l < 0 → p'.s.values l < 0
  dec : ∀ e ∈ p'.trail, e.reason = .decision → e ∈ p.trail
  old : ∀ e ∈ p.trail, e ∈ p'.trail

theorem Moved.refl {orig : List (List Nat)} {cand : Nat} {p : VState} (h : VInv orig p) (hc : NotReason cand p.trail) :
    Moved orig cand p p :=
  ⟨h, .refl _, hc, rfl, rfl, rfl, rfl, fun _ h => h, fun _ h _ => h, fun _ h => h⟩

theorem Moved.trans {orig : List (List Nat)} {cand : Nat} {a b c : VState} (h : Moved orig cand a b) (h' : Moved orig cand b c) :
    Moved orig cand a c :=
  ⟨h'.inv, h.pres.trans h'.pres, h'.not, h'.level.trans h.level, h'.arena.trans h.arena, h'.exports.trans h.exports,
    h'.removed.trans h.removed, fun l hl => h'.neg l (h.neg l hl), fun e he hd => h.dec e (h'.dec e he hd) hd,
    fun e he => h'.old e (h.old e he)⟩

/-- A conflicting clause. -/
def Conflicting (p : VState) (cand r : Nat) : Prop :=
  (p.s.clause r).garbage = false ∧ r ≠ cand ∧ ∀ m ∈ (p.s.clause r).lits, p.value m < 0

theorem Moved.visit {orig : List (List Nat)} {jump : Bool} {cand r : Nat} {p : VState} (h : VInv orig p)
    (hc : NotReason cand p.trail) {p' : VState} {b : Bool} (he : p.visit jump cand r = (p', b)) :
    Moved orig cand p p' ∧ (b = true → Conflicting p' cand r) := by
  have hS := h.inv.struct
  unfold VState.visit at he
  dsimp only at he
  by_cases c1 : ((p.s.clause r).garbage || r = cand || (p.s.clause r).lits.any fun l => decide (p.value l > 0)) = true
  · rw [if_pos c1] at he
    cases he
    exact ⟨.refl h hc, fun h => (by cases h)⟩
  · rw [if_neg c1] at he
    simp only [Bool.or_eq_true, not_or, List.any_eq_true, decide_eq_true_eq, not_exists, not_and] at c1
    obtain ⟨⟨hg, hrc⟩, hle⟩ := c1
    have hg : (p.s.clause r).garbage = false := by simpa using hg
    have hmem : ∀ m : Nat, m ∈ (p.s.clause r).lits.filter (fun l => decide (p.value l = 0)) ↔
        m ∈ (p.s.clause r).lits ∧ p.value m = 0 := by
      intro m; rw [List.mem_filter]; simp
    generalize (p.s.clause r).lits.filter (fun l => decide (p.value l = 0)) = c at hmem he
    match c, hmem, he with
    | [], hmem, he =>
      cases he
      refine ⟨.refl h hc, fun _ => ⟨hg, hrc, fun m hm => ?_⟩⟩
      have h1 := hle m hm
      have h2 : ¬ p.value m = 0 := fun e => by have := (hmem m).2 ⟨hm, e⟩; cases this
      omega
    | _ :: _ :: _, _, he =>
      cases he
      exact ⟨.refl h hc, fun h => (by cases h)⟩
    | [u], hmem, he =>
      dsimp only at he
      obtain ⟨u1, u2⟩ := (hmem u).1 (by simp)
      obtain ⟨v1, v2⟩ := value_unassigned u2
      have hfalse : ∀ m ∈ (p.s.clause r).lits, m ≠ u → p.value m < 0 := fun m hm hne => by
        have h1 := hle m hm
        have h2 : ¬ p.value m = 0 := fun e => by
          have := (hmem m).2 ⟨hm, e⟩
          exact hne (by simpa using this)
        omega
      by_cases c2 : p.s.removed (u / 2) = true
      · rw [if_pos c2] at he
        cases he
        exact ⟨.refl h hc, fun h => (by cases h)⟩
      · rw [if_neg c2] at he
        have c2 : p.s.removed (u / 2) = false := by simpa using c2
        have hr := hS.clause r hg u u1
        have hmax := (foldl_max_le ((p.s.clause r).lits.map p.levelOf) 0).2
        have hzero := foldl_max_zero ((p.s.clause r).lits.map p.levelOf)
        generalize ((p.s.clause r).lits.map p.levelOf).foldl max 0 = level at hmax he hzero
        have hmax : ∀ m ∈ (p.s.clause r).lits, p.levelOf m ≤ level := fun m hm => hmax _ (List.mem_map_of_mem hm)
        have hon : ∀ m ∈ (p.s.clause r).lits, m ≠ u → p.s.values m < 0 ∨ On p.trail (Spec.neg m) level := fun m hm hne => by
          rcases value_false (hfalse m hm hne) with h1 | ⟨e, e1, e2⟩
          · exact Or.inl h1
          · refine Or.inr ⟨e, e1, e2, ?_⟩
            have := hmax m hm
            unfold VState.levelOf at this
            rw [← e2, entry_mem h.trail e1] at this
            exact this
        by_cases c3 : level = 0
        · rw [if_pos c3] at he
          cases he
          have hroot : ∀ m ∈ (p.s.clause r).lits, m ≠ u → p.s.values m < 0 := fun m hm hne => by
            rcases hon m hm hne with h1 | ⟨e, e1, _, e3⟩
            · exact h1
            · have := (h.trail.free e e1).2.2.2
              omega
          have hrup : RUP p.s.formula [u] := rup_of (Struct.clause_formula hg) fun l hl => by
            by_cases e : l = u
            · exact Or.inl (by simp [e])
            · exact Or.inr (hS.neg_unit (hroot l hl e))
          have hcomp := compat_unit hS h.trail v1 v2
          exact ⟨⟨⟨h.inv.learnedUnit v1 hr c2 hrup, h.trail.compat hcomp, h.dec, h.uniq⟩, preserves_unit hrup.entails, hc, rfl, rfl,
            rfl, rfl, hcomp.neg, fun _ h _ => h, fun _ h => h⟩, fun h => (by cases h)⟩
        · rw [if_neg c3] at he
          have hpush : ∀ (re : VReason), re ≠ .decision → re ≠ .clause cand → Valid p.s p.trail ⟨u, level, re⟩ →
              Moved orig cand p { p with trail := ⟨u, level, re⟩ :: p.trail } := by
            intro re h1 h2 h3
            refine ⟨⟨h.inv, .cons h.trail v1 hr c2 (Nat.pos_of_ne_zero c3) v2 h3, fun e he hd => ?_, fun e he e' he' d1 d2 => ?_⟩, .refl _, fun e he => ?_, rfl,
              rfl, rfl, rfl, fun _ h => h, fun e he hd => ?_, fun e he => List.mem_cons_of_mem _ he⟩
            · rcases List.mem_cons.1 he with e1 | he
              · rw [e1] at hd; exact absurd hd h1
              · exact h.dec e he hd
            · rcases List.mem_cons.1 he with e1 | he
              · rw [e1] at d1; exact absurd d1 h1
              · rcases List.mem_cons.1 he' with e1 | he'
                · rw [e1] at d2; exact absurd d2 h1
                · exact h.uniq e he e' he' d1 d2
            · rcases List.mem_cons.1 he with e1 | he
              · rw [e1]; exact h2
              · exact hc e he
            · rcases List.mem_cons.1 he with e1 | he
              · rw [e1] at hd; exact absurd hd h1
              · exact he
          cases he
          refine ⟨?_, fun h => (by cases h)⟩
          have hclause : Moved orig cand p { p with trail := ⟨u, level, .clause r⟩ :: p.trail } :=
            hpush _ (by simp) (by simp; exact hrc) ⟨hg, u1, hon⟩
          have hbinary : ∀ other, (p.s.clause r).redundant = false → p.s.binaryOther u r = some other →
              Chain p.s (Spec.neg other) u ∧ On p.trail (Spec.neg other) level := by
            intro other hred ho
            obtain ⟨o1, o2, o3⟩ := binaryOther_some ho
            refine ⟨.one ⟨r, hg, hred, o1, by rw [neg_neg]; exact o2, u1, by rw [neg_neg]; exact fun e => o3 e.symm⟩, ?_⟩
            rcases hon other o2 o3 with h1 | h1
            · exfalso
              refine c3 (hzero fun x hx => ?_)
              obtain ⟨m, m1, rfl⟩ := List.mem_map.1 hx
              by_cases hz : p.levelOf m = 0
              · exact hz
              · exfalso
                obtain ⟨e, e1, e2⟩ := (levelOf_pos h.trail).1 hz
                rcases binary_lits o1 u1 o2 o3 m1 with e3 | e3
                · exact v2 e e1 (by rw [e2, e3, neg_div])
                · have := (h.trail.free e e1).1
                  rw [e2, e3, hS.neg] at this
                  omega
            · exact h1
          cases hred : (p.s.clause r).redundant with
          | true => exact hclause
          | false =>
            cases ho : p.s.binaryOther u r with
            | none => exact hclause
            | some other =>
              dsimp only
              obtain ⟨b1, b2⟩ := hbinary other hred ho
              have hplain : Moved orig cand p { p with trail := ⟨u, level, .binary other⟩ :: p.trail } :=
                hpush _ (by simp) (by simp) ⟨b1, b2⟩
              cases jump with
              | false => exact hplain
              | true =>
                cases hen : p.entry (Spec.neg other) with
                | none => exact hplain
                | some e =>
                  obtain ⟨l', k', re⟩ := e
                  cases re with
                  | decision => exact hplain
                  | clause _ => exact hplain
                  | binary o2 =>
                    refine hpush _ (by simp) (by simp) ?_
                    obtain ⟨e1, e2⟩ := entry_some hen
                    dsimp only at e2
                    subst e2
                    obtain ⟨w1, w2⟩ := h.trail.valid _ e1
                    refine ⟨w1.trans b1, ?_⟩
                    obtain ⟨x, x1, x2, x3⟩ := w2
                    refine ⟨x, x1, x2, Nat.le_trans x3 ?_⟩
                    have := hmax other (binaryOther_some ho).2.1
                    unfold VState.levelOf at this
                    rw [hen] at this
                    exact this

theorem Moved.propagate {orig : List (List Nat)} {jump : Bool} {cand : Nat} : ∀ (rs : List Nat) {p : VState}, VInv orig p →
    NotReason cand p.trail → ∀ {p' : VState} {c : Option Nat}, p.propagate jump cand rs = (p', c) →
    Moved orig cand p p' ∧ ∀ r, c = some r → Conflicting p' cand r
  | [], p, h, hc, p', c, he => by
    unfold VState.propagate at he
    cases he
    exact ⟨.refl h hc, fun _ h => (by cases h)⟩
  | r :: rs, p, h, hc, p', c, he => by
    unfold VState.propagate at he
    cases hv : p.visit jump cand r with
    | mk q b =>
      rw [hv] at he
      obtain ⟨i1, i2⟩ := Moved.visit h hc hv
      cases b with
      | true =>
        dsimp only at he
        cases he
        exact ⟨i1, fun x e => by cases e; exact i2 rfl⟩
      | false =>
        dsimp only at he
        obtain ⟨j1, j2⟩ := Moved.propagate rs i1.inv i1.not he
        exact ⟨i1.trans j1, j2⟩

/-! ## Deriving literals on the trail -/

/-- The analyzed literals are closed under reasons. -/
structure Closure (p : VState) (F : Formula) (A : Nat → Prop) (S : List Nat) : Prop where
  decision : ∀ e ∈ p.trail, Spec.neg e.lit ∈ S → e.reason = .decision → UP F A e.lit
  binary : ∀ e ∈ p.trail, Spec.neg e.lit ∈ S → ∀ o, e.reason = .binary o → o ∈ S
  clause : ∀ e ∈ p.trail, Spec.neg e.lit ∈ S → ∀ r, e.reason = .clause r → F (p.s.clause r).lits ∧
    ∀ m ∈ (p.s.clause r).lits, m ≠ e.lit → p.levelOf m ≠ 0 → m ∈ S

theorem closure_up {orig : List (List Nat)} {p : VState} (hs : Struct orig p.s) (h : VT p.s p.trail) {F : Formula}
    {A : Nat → Prop} {S : List Nat} (hF : HasBinaries p.s F) (hU : ∀ l ∈ p.s.trail, F [l]) (hc : Closure p F A S) :
    ∀ e ∈ p.trail, Spec.neg e.lit ∈ S → UP F A e.lit := by
  have key : ∀ T, VT p.s T → (∀ e ∈ T, e ∈ p.trail) → ∀ e ∈ T, Spec.neg e.lit ∈ S → UP F A e.lit := by
    intro T hT
    induction hT with
    | nil => intro _ e he; cases he
    | @cons e T hT h1 h2 h3 h4 h5 h6 ih =>
      intro hsub
      have ih := ih fun x hx => hsub x (List.mem_cons_of_mem _ hx)
      intro x hx hS
      rcases List.mem_cons.1 hx with rfl | hx
      · have hm := hsub x (by simp)
        unfold Valid at h6
        cases hr : x.reason with
        | decision => exact hc.decision x hm hS hr
        | binary o =>
          rw [hr] at h6
          obtain ⟨w1, y, y1, y2, _⟩ := h6
          refine w1.up hF ?_
          rw [← y2]
          refine ih y y1 ?_
          rw [y2, neg_neg]
          exact hc.binary x hm hS o hr
        | clause r =>
          rw [hr] at h6
          obtain ⟨w1, w2, w3⟩ := h6
          obtain ⟨c1, c2⟩ := hc.clause x hm hS r hr
          refine .unit c1 w2 fun m hm' hne => ?_
          rcases w3 m hm' hne with h7 | ⟨y, y1, y2, _⟩
          · refine .unit (hU (Spec.neg m) ?_) (by simp) fun k hk hne => absurd (List.mem_singleton.1 hk) hne
            rw [hs.trail, hs.neg]; omega
          · rw [← y2]
            refine ih y y1 ?_
            rw [y2, neg_neg]
            exact c2 m hm' hne ((levelOf_pos h).2 ⟨y, hsub y (List.mem_cons_of_mem _ y1), y2⟩)
      · exact ih x hx hS
  exact key p.trail h fun _ h => h

/-! ## Analysis -/

/-- What has been done for an analyzed literal. -/
def Handled (p : VState) (analyzed c : List Nat) (red : Bool) (x : Nat) : Prop :=
  ∃ e ∈ p.trail, e.lit = Spec.neg x ∧
    match e.reason with
    | .decision => x ∈ c
    | .binary o => o ∈ analyzed
    | .clause r => (∀ m ∈ (p.s.clause r).lits, m ≠ e.lit → p.levelOf m ≠ 0 → m ∈ analyzed) ∧
        ((p.s.clause r).redundant = true → red = true)

theorem Handled.mono {p : VState} {a a' c c' : List Nat} {r r' : Bool} {x : Nat} (h : Handled p a c r x)
    (ha : ∀ y ∈ a, y ∈ a') (hc : ∀ y ∈ c, y ∈ c') (hr : r = true → r' = true) : Handled p a' c' r' x := by
  obtain ⟨e, h1, h2, h3⟩ := h
  refine ⟨e, h1, h2, ?_⟩
  cases hre : e.reason with
  | decision => rw [hre] at h3; exact hc _ h3
  | binary o => rw [hre] at h3; exact ha _ h3
  | clause q => rw [hre] at h3; exact ⟨fun m h4 h5 h6 => ha _ (h3.1 m h4 h5 h6), fun h => hr (h3.2 h)⟩

/-- The result of the analysis. -/
structure DOut (p : VState) (sorted c₀ : List Nat) (S₀ : List Nat) (red₀ : Bool) (d : Deduced) : Prop where
  binary : d = .subsumed none → ∃ e ∈ p.trail, ∃ o, e.reason = .binary o ∧ e.lit ∈ sorted ∧ o ∈ sorted
  clause : ∀ r, d = .subsumed (some r) → (∃ e ∈ p.trail, e.reason = .clause r) ∧ ∀ m ∈ (p.s.clause r).lits, m ∈ sorted
  learned : ∀ c S red, d = .learned c S red → (∀ x ∈ S₀, x ∈ S) ∧ (∀ x ∈ c₀, x ∈ c) ∧ (red₀ = true → red = true) ∧
    (∀ x ∈ S, Handled p S c red x) ∧
    ∀ x ∈ c, x ∈ c₀ ∨ ∃ e ∈ p.trail, e.lit = Spec.neg x ∧ e.reason = .decision

theorem deduceLoop_spec {p : VState} (hT : VT p.s p.trail) {sorted : List Nat} : ∀ (fuel : Nat) (todo analyzed c : List Nat) (red : Bool),
    (∀ x ∈ analyzed, x ∈ todo ∨ Handled p analyzed c red x) →
    ∀ {d : Deduced}, p.deduceLoop sorted fuel todo analyzed c red = some d → DOut p sorted c analyzed red d
  | fuel, [], analyzed, c, red, hA, d, he => by
    unfold VState.deduceLoop at he
    injection he with he
    subst he
    refine ⟨fun h => (by cases h), fun _ h => (by cases h), fun c' S red' h => ?_⟩
    cases h
    exact ⟨fun _ h => h, fun _ h => h, fun h => h, fun x hx => (hA x hx).resolve_left (by simp), fun x hx => Or.inl hx⟩
  | 0, _ :: _, _, _, _, _, d, he => by
    unfold VState.deduceLoop at he
    cases he
  | fuel + 1, notLit :: todo, analyzed, c, red, hA, d, he => by
    unfold VState.deduceLoop at he
    -- continuing with more
    have step : ∀ (todo' analyzed' c' : List Nat) (red' : Bool),
        p.deduceLoop sorted fuel todo' analyzed' c' red' = some d → (∀ x ∈ analyzed, x ∈ analyzed') → (∀ x ∈ c, x ∈ c') →
        (red = true → red' = true) → (∀ x ∈ todo, x ∈ todo') → (∀ x ∈ analyzed', x ∉ analyzed → x ∈ todo') →
        Handled p analyzed' c' red' notLit →
        (∀ x ∈ c', x ∈ c ∨ ∃ e ∈ p.trail, e.lit = Spec.neg x ∧ e.reason = .decision) →
        DOut p sorted c analyzed red d := by
      intro todo' analyzed' c' red' he h1 h2 h3 h4 h5 h6 h7
      obtain ⟨i1, i2, i3⟩ := deduceLoop_spec hT fuel todo' analyzed' c' red' (fun x hx => by
        by_cases hxa : x ∈ analyzed
        · rcases hA x hxa with h8 | h8
          · rcases List.mem_cons.1 h8 with rfl | h8
            · exact Or.inr h6
            · exact Or.inl (h4 x h8)
          · exact Or.inr (h8.mono h1 h2 h3)
        · exact Or.inl (h5 x hx hxa)) he
      refine ⟨i1, i2, fun c'' S red'' hd => ?_⟩
      obtain ⟨j1, j2, j3, j4, j5⟩ := i3 c'' S red'' hd
      refine ⟨fun x hx => j1 x (h1 x hx), fun x hx => j2 x (h2 x hx), fun h => j3 (h3 h), j4, fun x hx => ?_⟩
      rcases j5 x hx with h8 | h8
      · exact h7 x h8
      · exact Or.inr h8
    cases hen : p.entry (Spec.neg notLit) with
    | none => rw [hen] at he; cases he
    | some e =>
      obtain ⟨lit, k, re⟩ := e
      obtain ⟨e1, e2⟩ := entry_some hen
      dsimp only at e2
      subst e2
      rw [hen] at he
      cases re with
      | decision =>
        dsimp only at he
        rw [neg_neg] at he
        refine step todo analyzed (c ++ [notLit]) red he (fun _ h => h) (fun _ h => List.mem_append_left _ h) (fun h => h) (fun _ h => h)
          (fun x h h' => absurd h h') ⟨_, e1, rfl, by simp⟩ fun x hx => ?_
        rcases List.mem_append.1 hx with hx | hx
        · exact Or.inl hx
        · rw [List.mem_singleton.1 hx]; exact Or.inr ⟨_, e1, rfl, rfl⟩
      | binary other =>
        dsimp only at he
        by_cases c1 : (sorted.contains (Spec.neg notLit) && sorted.contains other) = true
        · rw [if_pos c1] at he
          injection he with he
          subst he
          simp only [Bool.and_eq_true, List.contains_iff_mem] at c1
          exact ⟨fun _ => ⟨_, e1, other, rfl, c1.1, c1.2⟩, fun _ h => (by cases h), fun _ _ _ h => (by cases h)⟩
        · rw [if_neg c1] at he
          by_cases c2 : analyzed.contains other = true
          · rw [if_pos c2] at he
            exact step todo analyzed c red he (fun _ h => h) (fun _ h => h) (fun h => h) (fun _ h => h)
              (fun x h h' => absurd h h') ⟨_, e1, rfl, by simpa using c2⟩ fun x hx => Or.inl hx
          · rw [if_neg c2] at he
            refine step (todo ++ [other]) (analyzed ++ [other]) c red he (fun _ h => List.mem_append_left _ h) (fun _ h => h)
              (fun h => h) (fun _ h => List.mem_append_left _ h) (fun x h h' => ?_) ⟨_, e1, rfl, by simp⟩ fun x hx => Or.inl hx
            exact List.mem_append_right _ ((List.mem_append.1 h).resolve_left h')
      | clause r =>
        dsimp only at he
        by_cases c1 : ((p.s.clause r).lits.all fun m => sorted.contains m) = true
        · rw [if_pos c1] at he
          injection he with he
          subst he
          refine ⟨fun h => (by cases h), fun r' h => ?_, fun _ _ _ h => (by cases h)⟩
          cases h
          exact ⟨⟨_, e1, rfl⟩, fun m hm => by simpa using List.all_eq_true.1 c1 m hm⟩
        · rw [if_neg c1] at he
          refine step _ _ c _ he (fun _ h => List.mem_append_left _ h) (fun _ h => h) (fun h => by rw [h]; rfl)
            (fun _ h => List.mem_append_left _ h) (fun x h h' => List.mem_append_right _ ((List.mem_append.1 h).resolve_left h'))
            ⟨_, e1, rfl, fun m h1 h2 h3 => ?_, fun h => by rw [h]; simp⟩ fun x hx => Or.inl hx
          by_cases hma : m ∈ analyzed
          · exact List.mem_append_left _ hma
          · refine List.mem_append_right _ (List.mem_filter.2 ⟨h1, ?_⟩)
            simp only [Bool.and_eq_true, decide_eq_true_eq, Bool.not_eq_true', ne_eq]
            exact ⟨⟨by simpa using h2, by simpa using h3⟩, by simpa using hma⟩

/-- If only decisions are analyzed then the literals are those of the start. -/
theorem deduceLoop_decisions {p : VState} (hT : VT p.s p.trail) {sorted : List Nat} : ∀ (fuel : Nat) (todo analyzed c : List Nat)
    (red : Bool), (∀ x ∈ todo, ∃ e ∈ p.trail, e.reason = .decision ∧ e.lit = Spec.neg x) →
    ∀ {d : Deduced}, p.deduceLoop sorted fuel todo analyzed c red = some d → d = .learned (c ++ todo) analyzed red
  | fuel, [], analyzed, c, red, _, d, he => by
    unfold VState.deduceLoop at he
    injection he with he
    rw [← he, List.append_nil]
  | 0, _ :: _, _, _, _, _, d, he => by
    unfold VState.deduceLoop at he
    cases he
  | fuel + 1, notLit :: todo, analyzed, c, red, hd, d, he => by
    unfold VState.deduceLoop at he
    obtain ⟨e, e1, e2, e3⟩ := hd notLit (by simp)
    have := entry_mem hT e1
    obtain ⟨lit, k, re⟩ := e
    dsimp only at e2 e3
    subst e2
    subst e3
    dsimp only at this
    rw [this] at he
    dsimp only at he
    rw [deduceLoop_decisions hT fuel todo analyzed _ red (fun x hx => hd x (List.mem_cons_of_mem _ hx)) he, neg_neg]
    simp

end Verif.Simp
