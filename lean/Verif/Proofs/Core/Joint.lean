import Verif.Model.Core.Joint
import Verif.Proofs.Core.Search
import Verif.Proofs.Decide

/-!
# Queue and heap stay linked with the solver
-/

namespace Verif.Core

open Verif.Spec
open Verif.Model

variable {α : Type} [LinearOrder α]

/-! ## Calls -/

theorem bump_exec {zero : α} {d d1 : Decide.State α} {op : Decide.Op α} (hb : IsBump op)
    (e : Decide.exec zero d op = some d1) : d1.active = d.active ∧ d1.assigned = d.assigned := by
  cases op with
  | moveToFront v =>
    obtain ⟨q, _, rfl⟩ := Option.map_eq_some_iff.1 e
    exact ⟨rfl, rfl⟩
  | setScore v x =>
    obtain ⟨q, _, rfl⟩ := Option.map_eq_some_iff.1 e
    exact ⟨rfl, rfl⟩
  | rescale f =>
    obtain rfl := Option.some.inj e
    exact ⟨rfl, rfl⟩
  | _ => exact hb.elim

theorem bump_legal {zero : α} {d : Decide.State α} {op : Decide.Op α} (hb : IsBump op)
    (h : Decide.Legal zero true d op) : Decide.Legal zero false d op := by
  cases op with
  | moveToFront v => exact h
  | setScore v x => exact h
  | rescale f => exact h
  | _ => exact hb.elim

theorem Calls.split {zero : α} {b : Bool} {ops : List (Decide.Op α)} {d d' : Decide.State α}
    (h : Calls zero b ops d d') : ∀ {xs ys : List (Decide.Op α)}, ops = xs ++ ys →
    ∃ m, Calls zero b xs d m ∧ Calls zero b ys m d' := by
  induction h with
  | nil d =>
    intro xs ys e
    obtain ⟨rfl, rfl⟩ := List.nil_eq_append_iff.1 e
    exact ⟨d, .nil d, .nil d⟩
  | @call op ops d d1 d' e h ih =>
    intro xs ys hx
    cases xs with
    | nil =>
      exact ⟨d, .nil d, by rw [List.nil_append] at hx; rw [← hx]; exact .call e h⟩
    | cons x xs =>
      obtain ⟨rfl, rfl⟩ := List.cons.inj hx
      obtain ⟨m, h1, h2⟩ := ih rfl
      exact ⟨m, .call e h1, h2⟩
  | bump hb hi hl e h ih =>
    intro xs ys hx
    obtain ⟨m, h1, h2⟩ := ih hx
    exact ⟨m, .bump hb hi hl e h1, h2⟩

theorem Calls.append {zero : α} {b : Bool} {xs ys : List (Decide.Op α)} {d m d' : Decide.State α}
    (h : Calls zero b xs d m) (g : Calls zero b ys m d') : Calls zero b (xs ++ ys) d d' := by
  induction h with
  | nil d => exact g
  | call e h ih => exact .call e (ih g)
  | bump hb hi hl e h ih => exact .bump hb hi hl e (ih g)

theorem Calls.mono {zero : α} {b : Bool} {xs : List (Decide.Op α)} {d d' : Decide.State α}
    (h : Calls zero false xs d d') : Calls zero b xs d d' := by
  induction h with
  | nil d => exact .nil d
  | call e h ih => exact .call e ih
  | bump hb hi hl e h ih => cases hb

theorem calls_none {zero : α} {b : Bool} {ops : List (Decide.Op α)} {d d' : Decide.State α}
    (h : Calls zero b ops d d') : ops = [] → Decide.Reaches zero false d →
    Decide.Reaches zero false d' ∧ d'.active = d.active ∧ d'.assigned = d.assigned := by
  induction h with
  | nil d => exact fun _ hr => ⟨hr, rfl, rfl⟩
  | call e h ih => intro e; cases e
  | bump hb hi hl e h ih =>
    intro e0 hr
    obtain ⟨a, b⟩ := bump_exec hi e
    obtain ⟨g1, g2, g3⟩ := ih e0 (hr.step (bump_legal hi hl) e)
    exact ⟨g1, g2.trans a, g3.trans b⟩

theorem calls_unassign {zero : α} {b : Bool} {ops : List (Decide.Op α)} {d d' : Decide.State α}
    (h : Calls zero b ops d d') : ∀ {us : List Nat}, ops = us.map .unassign →
    (∀ v ∈ us, d.active v = true) → Decide.Reaches zero false d →
    Decide.Reaches zero false d' ∧ d'.active = d.active ∧
      ∀ v, d'.assigned v = true ↔ d.assigned v = true ∧ v ∉ us := by
  induction h with
  | nil d =>
    intro us hu _ hr
    obtain rfl := List.map_eq_nil_iff.1 hu.symm
    exact ⟨hr, rfl, by simp⟩
  | @call op ops d d1 d' e h ih =>
    intro us hu ha hr
    cases us with
    | nil => cases hu
    | cons u us =>
      obtain ⟨rfl, rfl⟩ := List.cons.inj hu
      obtain ⟨l, hi⟩ := Decide.reaches_inv hr
      obtain ⟨s', e', _, a1, a2⟩ := Decide.unassign_spec hi (ha u (by simp))
      obtain rfl := Option.some.inj (e'.symm.trans e)
      obtain ⟨g1, g2, g3⟩ := ih rfl (fun v hv => by rw [a1]; exact ha v (by simp [hv]))
        (hr.step (op := .unassign u) (ha u (by simp)) e)
      refine ⟨g1, g2.trans a1, fun v => ?_⟩
      rw [g3, a2]
      by_cases hv : v = u
      · subst hv; rw [Heap.upd_same]; simp
      · rw [Heap.upd_ne hv]; simp [hv]
  | bump hb hi hl e h ih =>
    intro us hu ha hr
    obtain ⟨a, b⟩ := bump_exec hi e
    obtain ⟨g1, g2, g3⟩ := ih hu (fun v hv => by rw [a]; exact ha v hv) (hr.step (bump_legal hi hl) e)
    exact ⟨g1, g2.trans a, fun v => by rw [g3, b]⟩

theorem calls_assign {zero : α} {b : Bool} {ops : List (Decide.Op α)} {d d' : Decide.State α}
    (h : Calls zero b ops d d') : ∀ {us : List Nat}, ops = us.map .assign →
    (∀ v ∈ us, d.active v = true) → Decide.Reaches zero false d →
    Decide.Reaches zero false d' ∧ d'.active = d.active ∧
      ∀ v, d'.assigned v = true ↔ d.assigned v = true ∨ v ∈ us := by
  induction h with
  | nil d =>
    intro us hu _ hr
    obtain rfl := List.map_eq_nil_iff.1 hu.symm
    exact ⟨hr, rfl, by simp⟩
  | @call op ops d d1 d' e h ih =>
    intro us hu ha hr
    cases us with
    | nil => cases hu
    | cons u us =>
      obtain ⟨rfl, rfl⟩ := List.cons.inj hu
      obtain ⟨l, hi⟩ := Decide.reaches_inv hr
      obtain rfl := Option.some.inj e
      obtain ⟨g1, g2, g3⟩ := ih rfl (fun v hv => ha v (by simp [hv]))
        (hr.step (op := .assign u) (hi.lt (ha u (by simp))) e)
      refine ⟨g1, g2, fun v => ?_⟩
      rw [g3]
      show upd d.assigned u true v = true ∨ _ ↔ _
      by_cases hv : v = u
      · subst hv; rw [Heap.upd_same]; simp
      · rw [Heap.upd_ne hv]; simp [hv]
  | bump hb hi hl e h ih =>
    intro us hu ha hr
    obtain ⟨a, b⟩ := bump_exec hi e
    obtain ⟨g1, g2, g3⟩ := ih hu (fun v hv => by rw [a]; exact ha v hv) (hr.step (bump_legal hi hl) e)
    exact ⟨g1, g2.trans a, fun v => by rw [g3, b]⟩

theorem calls_deactivate {zero : α} {b : Bool} {ops : List (Decide.Op α)} {d d' : Decide.State α}
    (h : Calls zero b ops d d') : ∀ {us : List Nat}, ops = us.map .deactivate → us.Nodup →
    (∀ v ∈ us, d.active v = true) → Decide.Reaches zero false d →
    Decide.Reaches zero false d' ∧ d'.assigned = d.assigned ∧
      ∀ v, d'.active v = true ↔ d.active v = true ∧ v ∉ us := by
  induction h with
  | nil d =>
    intro us hu _ _ hr
    obtain rfl := List.map_eq_nil_iff.1 hu.symm
    exact ⟨hr, rfl, by simp⟩
  | @call op ops d d1 d' e h ih =>
    intro us hu hn ha hr
    cases us with
    | nil => cases hu
    | cons u us =>
      obtain ⟨rfl, rfl⟩ := List.cons.inj hu
      obtain ⟨l, hi⟩ := Decide.reaches_inv hr
      obtain ⟨s', l', e', _, a1, a2, _⟩ := Decide.deactivate_spec hi (ha u (by simp))
      obtain rfl := Option.some.inj (e'.symm.trans e)
      obtain ⟨n1, n2⟩ := List.nodup_cons.1 hn
      obtain ⟨g1, g2, g3⟩ := ih rfl n2
        (fun v hv => (a1 v).2 ⟨ha v (by simp [hv]), fun e => n1 (e ▸ hv)⟩)
        (hr.step (op := .deactivate u) (ha u (by simp)) e)
      refine ⟨g1, g2.trans a2, fun v => ?_⟩
      rw [g3, a1]
      simp only [List.mem_cons, not_or, and_assoc]
  | bump hb hi hl e h ih =>
    intro us hu hn ha hr
    obtain ⟨a, b⟩ := bump_exec hi e
    obtain ⟨g1, g2, g3⟩ := ih hu hn (fun v hv => by rw [a]; exact ha v hv)
      (hr.step (bump_legal hi hl) e)
    exact ⟨g1, g2.trans b, fun v => by rw [g3, a]⟩

theorem calls_exist {zero : α} : ∀ (ops : List (Decide.Op α)) {d : Decide.State α},
    Decide.Reaches zero false d →
    (∀ op d1, op ∈ ops → Decide.Reaches zero false d1 → d1.active = d.active →
      Decide.Legal zero false d1 op ∧
        ∀ d2, Decide.exec zero d1 op = some d2 → d2.active = d1.active) →
    ∃ d', Calls zero false ops d d'
  | [], d, _, _ => ⟨d, .nil d⟩
  | op :: ops, d, hr, h => by
    obtain ⟨l, hi⟩ := Decide.reaches_inv hr
    obtain ⟨hl, hact⟩ := h op d (by simp) hr rfl
    obtain ⟨d1, e, _⟩ := Decide.exec_spec hi hl
    have ha := hact d1 e
    obtain ⟨d', h'⟩ := calls_exist ops (hr.step hl e)
      (fun op d2 hm hr2 h2 => h op d2 (by simp [hm]) hr2 (h2.trans ha))
    exact ⟨d', .call e h'⟩

theorem deactivate_exist {zero : α} : ∀ (us : List Nat) {d : Decide.State α},
    Decide.Reaches zero false d → us.Nodup → (∀ v ∈ us, d.active v = true) →
    ∃ d', Calls zero false (us.map .deactivate) d d'
  | [], d, _, _, _ => ⟨d, .nil d⟩
  | u :: us, d, hr, hn, ha => by
    obtain ⟨l, hi⟩ := Decide.reaches_inv hr
    obtain ⟨d1, l', e, _, a1, a2, _⟩ := Decide.deactivate_spec hi (ha u (by simp))
    obtain ⟨n1, n2⟩ := List.nodup_cons.1 hn
    obtain ⟨d', h'⟩ := deactivate_exist us (hr.step (op := .deactivate u) (ha u (by simp)) e) n2
      (fun v hv => (a1 v).2 ⟨ha v (by simp [hv]), fun e => n1 (e ▸ hv)⟩)
    exact ⟨d', .call e h'⟩

theorem unassign_exist {zero : α} {us : List Nat} {d : Decide.State α}
    (hr : Decide.Reaches zero false d) (ha : ∀ v ∈ us, d.active v = true) :
    ∃ d', Calls zero false (us.map .unassign) d d' := by
  refine calls_exist _ hr fun op d1 hm hr1 h1 => ?_
  obtain ⟨v, hv, rfl⟩ := List.mem_map.1 hm
  have hact : d1.active v = true := by rw [h1]; exact ha v hv
  refine ⟨hact, fun d2 e => ?_⟩
  obtain ⟨l, hi⟩ := Decide.reaches_inv hr1
  obtain ⟨s', e', _, a1, _⟩ := Decide.unassign_spec hi hact
  obtain rfl := Option.some.inj (e'.symm.trans e)
  exact a1

theorem assign_exist {zero : α} {us : List Nat} {d : Decide.State α}
    (hr : Decide.Reaches zero false d) (ha : ∀ v ∈ us, d.active v = true) :
    ∃ d', Calls zero false (us.map .assign) d d' := by
  refine calls_exist _ hr fun op d1 hm hr1 h1 => ?_
  obtain ⟨v, hv, rfl⟩ := List.mem_map.1 hm
  have hact : d1.active v = true := by rw [h1]; exact ha v hv
  obtain ⟨l, hi⟩ := Decide.reaches_inv hr1
  refine ⟨hi.lt hact, fun d2 e => ?_⟩
  obtain rfl := Option.some.inj e
  rfl

/-! ## Transitions of the solver -/

/-- What transitions of the solver during search satisfy. -/
structure Moves (s s' : Solver) : Prop where
  trail : TrailInv s
  trail' : TrailInv s'
  vars : s'.vars = s.vars
  removed : s'.removed = s.removed
  root : ∀ x, s.values x ≠ 0 → s.lev x = 0 → s'.values x = s.values x ∧ s'.lev x = 0

theorem rootValued_eq {s : Solver} {v : Nat} :
    s.rootValued v = true ↔ s.values (2 * v) ≠ 0 ∧ s.lev (2 * v) = 0 := by
  unfold Solver.rootValued; simp

theorem rootValued_false {s : Solver} {v : Nat} :
    s.rootValued v = false ↔ ¬ (s.values (2 * v) ≠ 0 ∧ s.lev (2 * v) = 0) := by
  rw [← rootValued_eq]; simp

theorem TrailInv.valid_var {s : Solver} (h : TrailInv s) {v : Nat} (hv : s.values (2 * v) ≠ 0) :
    v < s.vars ∧ s.removed v = false := by
  have := h.valid _ hv
  unfold Solver.Valid at this
  rwa [show 2 * v / 2 = v by omega] at this

theorem mem_undone {s s' : Solver} (h : TrailInv s) {v : Nat} :
    v ∈ undone s s' ↔ s.values (2 * v) ≠ 0 ∧ s'.values (2 * v) ≠ s.values (2 * v) := by
  unfold undone
  rw [List.mem_filter, List.mem_range]
  simp only [Bool.and_eq_true, bne_iff_ne]
  exact ⟨fun h => h.2, fun g => ⟨(h.valid_var g.1).1, g⟩⟩

theorem mem_redone {s s' : Solver} (h : TrailInv s') (hv : s'.vars = s.vars) {v : Nat} :
    v ∈ redone s s' ↔ s'.values (2 * v) ≠ 0 ∧ s'.values (2 * v) ≠ s.values (2 * v) := by
  unfold redone
  rw [List.mem_filter, List.mem_range]
  simp only [Bool.and_eq_true, bne_iff_ne]
  exact ⟨fun h => h.2, fun g => ⟨by rw [← hv]; exact (h.valid_var g.1).1, g⟩⟩

theorem mem_newlyFixed {s s' : Solver} (h : TrailInv s') (hv : s'.vars = s.vars) {v : Nat} :
    v ∈ newlyFixed s s' ↔ s'.rootValued v = true ∧ s.rootValued v = false := by
  unfold newlyFixed
  rw [List.mem_filter, List.mem_range]
  simp only [Bool.and_eq_true, Bool.not_eq_true']
  exact ⟨fun h => h.2, fun g =>
    ⟨by rw [← hv]; exact (h.valid_var (rootValued_eq.1 g.1).1).1, g⟩⟩

theorem newlyFixed_nodup (s s' : Solver) : (newlyFixed s s').Nodup :=
  List.filter_sublist.nodup List.nodup_range

theorem Moves.active_undone {s s' : Solver} (h : Moves s s') {v : Nat}
    (hv : v ∈ undone s s') : s.inUse v := by
  rw [mem_undone h.trail] at hv
  obtain ⟨a, b⟩ := h.trail.valid_var hv.1
  refine ⟨a, b, rootValued_false.2 fun g => hv.2 (h.root _ g.1 g.2).1⟩

theorem Moves.active_redone {s s' : Solver} (h : Moves s s') {v : Nat}
    (hv : v ∈ redone s s') : s.inUse v := by
  rw [mem_redone h.trail' h.vars] at hv
  obtain ⟨a, b⟩ := h.trail'.valid_var hv.1
  rw [h.vars] at a
  rw [h.removed] at b
  refine ⟨a, b, rootValued_false.2 fun g => hv.2 (h.root _ g.1 g.2).1⟩

theorem Moves.active_fixed {s s' : Solver} (h : Moves s s') {v : Nat}
    (hv : v ∈ newlyFixed s s') : s.inUse v := by
  rw [mem_newlyFixed h.trail' h.vars] at hv
  obtain ⟨a, b⟩ := h.trail'.valid_var (rootValued_eq.1 hv.1).1
  rw [h.vars] at a
  rw [h.removed] at b
  exact ⟨a, b, hv.2⟩

theorem Moves.inUse_iff {s s' : Solver} (h : Moves s s') (v : Nat) :
    s'.inUse v ↔ s.inUse v ∧ v ∉ newlyFixed s s' := by
  rw [mem_newlyFixed h.trail' h.vars]
  unfold Solver.inUse
  rw [h.vars, h.removed]
  constructor
  · rintro ⟨a, b, c⟩
    refine ⟨⟨a, b, rootValued_false.2 fun g => ?_⟩, fun g => by rw [c] at g; cases g.1⟩
    obtain ⟨e1, e2⟩ := h.root _ g.1 g.2
    exact rootValued_false.1 c ⟨by rw [e1]; exact g.1, e2⟩
  · rintro ⟨⟨a, b, c⟩, d⟩
    refine ⟨a, b, ?_⟩
    cases hf : s'.rootValued v with
    | false => rfl
    | true => exact absurd ⟨hf, c⟩ d

/-- Queue and heap follow the solver. -/
theorem Follows.linked {zero : α} {b : Bool} {s s' : Solver} {d d' : Decide.State α}
    (hm : Moves s s') (hL : Linked s d) (hr : Decide.Reaches zero false d)
    (h : Follows zero b s s' d d') : Linked s' d' ∧ Decide.Reaches zero false d' := by
  obtain ⟨us, as, fs, hu, ha, hf, h⟩ := h
  obtain ⟨m, h1, h2⟩ := h.split rfl
  obtain ⟨n, h2, h3⟩ := h2.split rfl
  obtain ⟨r1, a1, b1⟩ := calls_unassign h1 rfl
    (fun v hv => (hL.active v).2 (hm.active_undone (hu.mem_iff.1 hv))) hr
  obtain ⟨r2, a2, b2⟩ := calls_assign h2 rfl
    (fun v hv => by rw [a1]; exact (hL.active v).2 (hm.active_redone (ha.mem_iff.1 hv))) r1
  obtain ⟨r3, a3, b3⟩ := calls_deactivate h3 rfl (hf.nodup_iff.2 (newlyFixed_nodup s s'))
    (fun v hv => by rw [a2, a1]; exact (hL.active v).2 (hm.active_fixed (hf.mem_iff.1 hv))) r2
  refine ⟨⟨fun v => ?_, fun v => ?_⟩, r3⟩
  · rw [a3, b2, b1, hL.assigned, hu.mem_iff, ha.mem_iff, mem_undone hm.trail,
      mem_redone hm.trail' hm.vars]
    constructor
    · rintro (⟨g1, g2⟩ | g)
      · by_cases e : s'.values (2 * v) = s.values (2 * v)
        · rw [e]; exact g1
        · exact absurd ⟨g1, e⟩ g2
      · exact g.1
    · intro g
      by_cases e : s'.values (2 * v) = s.values (2 * v)
      · exact .inl ⟨by rw [← e]; exact g, fun k => k.2 e⟩
      · exact .inr ⟨g, e⟩
  · rw [b3, a2, a1, hL.active, hf.mem_iff, hm.inUse_iff]

/-- Every order of the calls succeeds. -/
theorem Follows.all {zero : α} {s s' : Solver} {d : Decide.State α}
    (hm : Moves s s') (hL : Linked s d) (hr : Decide.Reaches zero false d) {us as fs : List Nat}
    (hu : us.Perm (undone s s')) (ha : as.Perm (redone s s')) (hf : fs.Perm (newlyFixed s s')) :
    ∃ d', Calls zero false (us.map .unassign ++ (as.map .assign ++ fs.map .deactivate)) d d' := by
  have g1 : ∀ v ∈ us, d.active v = true :=
    fun v hv => (hL.active v).2 (hm.active_undone (hu.mem_iff.1 hv))
  obtain ⟨d1, h1⟩ := unassign_exist hr g1
  obtain ⟨r1, a1, _⟩ := calls_unassign h1 rfl g1 hr
  have g2 : ∀ v ∈ as, d1.active v = true :=
    fun v hv => by rw [a1]; exact (hL.active v).2 (hm.active_redone (ha.mem_iff.1 hv))
  obtain ⟨d2, h2⟩ := assign_exist r1 g2
  obtain ⟨r2, a2, _⟩ := calls_assign h2 rfl g2 r1
  obtain ⟨d3, h3⟩ := deactivate_exist fs r2 (hf.nodup_iff.2 (newlyFixed_nodup s s'))
    (fun v hv => by rw [a2, a1]; exact (hL.active v).2 (hm.active_fixed (hf.mem_iff.1 hv)))
  exact ⟨d3, h1.append (h2.append h3)⟩

theorem Follows.exist {zero : α} (b : Bool) {s s' : Solver} {d : Decide.State α}
    (hm : Moves s s') (hL : Linked s d) (hr : Decide.Reaches zero false d) :
    ∃ d', Follows zero b s s' d d' := by
  obtain ⟨d', h⟩ := Follows.all hm hL hr (.refl _) (.refl _) (.refl _)
  exact ⟨d', _, _, _, .refl _, .refl _, .refl _, h.mono⟩

/-! ## Decisions -/

theorem Linked.free {s : Solver} {d : Decide.State α} (h : Linked s d) {v : Nat} :
    (d.active v = true ∧ d.assigned v = false) ↔ v ∈ s.free := by
  rw [free_mem, h.active]
  unfold Solver.inUse
  have ha := h.assigned v
  constructor
  · rintro ⟨⟨a, b, _⟩, e⟩
    refine ⟨a, b, Classical.not_not.1 fun g => ?_⟩
    rw [ha.2 g] at e; cases e
  · rintro ⟨a, b, c⟩
    refine ⟨⟨a, b, rootValued_false.2 fun g => g.1 c⟩, ?_⟩
    cases e : d.assigned v with
    | false => rfl
    | true => exact absurd c (ha.1 e)

/-- The state after looking for the next decision variable is reached by deciding and
undoing the decision. -/
theorem peek_reaches {zero : α} {d d1 : Decide.State α} {v : Nat}
    (hr : Decide.Reaches zero false d) (hex : ∃ v, d.active v = true ∧ d.assigned v = false)
    (h : d.next = some (v, d1)) : Decide.Reaches zero false d1 ∧ d1.active = d.active ∧
      d1.assigned = d.assigned ∧ d.active v = true ∧ d.assigned v = false := by
  obtain ⟨l, hi⟩ := Decide.reaches_inv hr
  obtain ⟨r, s', e, hi', h1, h2, h3, h4, _⟩ := Decide.next_spec hi hex
  rw [h] at e
  obtain ⟨rfl, rfl⟩ := Prod.mk.inj (Option.some.inj e)
  refine ⟨?_, h3, h4, h1, h2⟩
  have r1 := hr.step (op := .decide) hex (s' := d1.assign v) (by
    show (d.next.map fun r => r.2.assign r.1) = _; rw [h]; rfl)
  refine r1.step (op := .unassign v) (by show d1.active v = true; rw [h3]; exact h1) ?_
  have hup : upd (upd d1.assigned v true) v false = d1.assigned := by
    funext w
    by_cases hw : w = v
    · subst hw; rw [Heap.upd_same, h4, h2]
    · rw [Heap.upd_ne hw, Heap.upd_ne hw]
  show (d1.assign v).unassign zero v = some d1
  unfold Decide.State.unassign Decide.State.assign
  simp only
  rw [hup]
  split
  · rename_i hst
    rw [if_pos (hi'.stable hst v (by rw [h3]; exact h1) (by rw [h4]; exact h2))]
  · rename_i hst
    have hq : d1.queue.unassign v = d1.queue := by
      have hs : d.stable = false := by
        cases hd : d.stable with
        | false => rfl
        | true =>
          unfold Decide.State.next at h
          rw [if_pos hd] at h
          obtain ⟨x, _, e⟩ := Option.map_eq_some_iff.1 h
          obtain ⟨_, rfl⟩ := Prod.mk.inj e
          exact absurd hd hst
      unfold Decide.State.next at h
      rw [if_neg (by rw [hs]; simp)] at h
      obtain ⟨x, hx, e⟩ := Option.map_eq_some_iff.1 h
      obtain ⟨rfl, rfl⟩ := Prod.mk.inj e
      show x.2.unassign x.1 = x.2
      unfold Queue.Queue.lastUnassigned at hx
      cases hse : d.queue.search with
      | none => rw [hse] at hx; cases hx
      | some w =>
        rw [hse] at hx
        simp only at hx
        split at hx
        · obtain ⟨y, _, rfl⟩ := Option.map_eq_some_iff.1 hx
          exact if_neg (Nat.lt_irrefl _)
        · obtain rfl := Option.some.inj hx
          refine if_neg ?_
          rw [(hi.queue.inside w hse).2]
          exact Nat.lt_irrefl _
    rw [hq]

theorem TrailInv.exists_free {s : Solver} (h : TrailInv s) (hu : s.unassigned ≠ 0) :
    ∃ v, v ∈ s.free :=
  List.exists_mem_of_ne_nil _ fun e => hu (by rw [h.count, e]; rfl)

theorem Picks.ok {zero : α} {s : Solver} {d d1 : Decide.State α} {v : Nat} (hL : Linked s d)
    (hr : Decide.Reaches zero false d) (hex : ∃ v, v ∈ s.free) (h : Picks d v d1) :
    Linked s d1 ∧ Decide.Reaches zero false d1 ∧ v ∈ s.free := by
  rcases h with h | ⟨h1, h2, rfl⟩
  · obtain ⟨w, hw⟩ := hex
    obtain ⟨a, b, c, e1, e2⟩ := peek_reaches hr ⟨w, hL.free.2 hw⟩ h
    exact ⟨⟨by rw [c]; exact hL.assigned, by rw [b]; exact hL.active⟩, a, hL.free.1 ⟨e1, e2⟩⟩
  · exact ⟨hL, hr, hL.free.1 ⟨h1, h2⟩⟩

/-- The queue or the heap finds a variable without value. -/
theorem Picks.exist {zero : α} {s : Solver} {d : Decide.State α} (hL : Linked s d)
    (hr : Decide.Reaches zero false d) (hex : ∃ v, v ∈ s.free) :
    ∃ v d1, d.next = some (v, d1) := by
  obtain ⟨w, hw⟩ := hex
  obtain ⟨l, hi⟩ := Decide.reaches_inv hr
  obtain ⟨r, s', e, _⟩ := Decide.next_spec hi ⟨w, hL.free.2 hw⟩
  exact ⟨r, s', e⟩

theorem Linked.congr {s s' : Solver} {d : Decide.State α} (h : Linked s d)
    (h1 : s'.values = s.values) (h2 : s'.assigned = s.assigned) (h3 : s'.vars = s.vars)
    (h4 : s'.removed = s.removed) : Linked s' d := by
  refine ⟨by rw [h1]; exact h.assigned, fun v => ?_⟩
  rw [h.active]
  unfold Solver.inUse Solver.rootValued Solver.lev
  rw [h1, h2, h3, h4]

theorem Linked.decision {zero : α} {s : Solver} {d : Decide.State α} (hL : Linked s d)
    (hr : Decide.Reaches zero false d) {v : Nat} (hv : v ∈ s.free) {lit : Nat} (hlit : lit / 2 = v) :
    Linked (s.assume lit) (d.assign v) ∧ Decide.Reaches zero false (d.assign v) := by
  have hva := hL.free.2 hv
  have hd : d.active v = true := hva.1
  obtain ⟨l, hi⟩ := Decide.reaches_inv hr
  refine ⟨⟨fun w => ?_, fun w => ?_⟩, hr.step (op := .assign v) (hi.lt hd) rfl⟩
  · show upd d.assigned v true w = true ↔ _
    rw [assume_values]
    by_cases hw : w = v
    · subst hw
      rw [Heap.upd_same]
      refine ⟨fun _ => ?_, fun _ => rfl⟩
      by_cases e : 2 * w = neg lit
      · rw [if_pos e]; decide
      · rw [if_neg e]
        have : 2 * w = lit := by unfold neg at e; split at e <;> omega
        rw [if_pos this]; decide
    · rw [Heap.upd_ne hw, hL.assigned, if_neg, if_neg]
      · rintro rfl; omega
      · intro e
        have := neg_div lit
        rw [← e] at this; omega
  · show d.active w = true ↔ _
    rw [hL.active]
    have e1 : (s.assume lit).vars = s.vars ∧ (s.assume lit).removed = s.removed := by
      rw [assume_eq]; exact ⟨rfl, rfl⟩
    unfold Solver.inUse
    rw [e1.1, e1.2, rootValued_false, rootValued_false, assume_values, assume_lev]
    by_cases hw : w = v
    · subst hw
      rw [if_pos (c := (2 * w / 2 = lit / 2)) (by omega)]
      have h0 := ((free_mem s w).1 hv).2.2
      simp [h0]
    · rw [if_neg (c := (2 * w / 2 = lit / 2)) (by omega), if_neg, if_neg]
      · rintro rfl; omega
      · intro e
        have := neg_div lit
        rw [← e] at this; omega

/-! ## The transitions of an iteration -/

theorem Moves.kept {s s' : Solver} (h : TrailInv s) (h' : TrailInv s') (k : Kept s s') :
    Moves s s' := ⟨h, h', k.vars, k.removed, k.root⟩

theorem Moves.propagate {orig : Base} {G : Assignment → Prop} {s : Solver} (h : PropInv orig G s) :
    Moves s (searchPropagate s).1 := by
  obtain ⟨a, b, _⟩ := searchPropagate_ok h
  refine ⟨h.ok.inv.trail, b.inv.trail, a.1, a.2, fun x hx h0 => ?_⟩
  obtain ⟨e1, e2⟩ := searchPropagate_old h x hx
  exact ⟨e1, e2.trans h0⟩

theorem Moves.back {orig : Base} [Deletes orig] {G : Assignment → Prop} {s : Solver}
    (h : PropInv orig G s) (n : Nat) : Moves s (s.backtrack n) := by
  obtain ⟨a, k⟩ := h.backtrack n
  exact .kept h.ok.inv.trail a.ok.inv.trail k

theorem Moves.refl {s : Solver} (h : TrailInv s) : Moves s s :=
  ⟨h, h, rfl, rfl, fun _ _ h0 => ⟨rfl, h0⟩⟩

theorem Moves.flush {orig : Base} [Deletes orig] {G : Assignment → Prop} {s : Solver}
    (h : PropInv orig G s) : Moves (s.backtrack 0) s.flushToRoot := by
  unfold Solver.flushToRoot
  by_cases h0 : s.level = 0
  · rw [if_neg (by simp [h0])]
    have : s.backtrack 0 = s := by unfold Solver.backtrack; rw [if_pos (by omega)]
    rw [this]; exact .refl h.ok.inv.trail
  · rw [if_pos h0]; exact .propagate (h.backtrack 0).1

/-- One decision of the warm-up with its propagation. -/
theorem Moves.warm {orig : Base} {G : Assignment → Prop} {r s : Solver} (hr : PropInv orig G r)
    (hrp : r.propagate = r.trail.length) (hr0 : r.level = 0) (h : Warm orig G r s) {lit : Nat}
    (h0 : s.values lit = 0) (hval : s.Valid lit) :
    Moves (s.assume lit) (propagateBeyond (s.vars + 1) (s.assume lit)) := by
  have h' := Warm.decision hr hrp hr0 h h0 hval
  have ht := h.ok.inv.trail
  have e1 : (s.assume lit).vars = s.vars ∧ (s.assume lit).removed = s.removed := by
    rw [assume_eq]; exact ⟨rfl, rfl⟩
  refine ⟨ht.assume h0 hval, h'.ok.inv.trail, ?_, ?_, fun x hx hl => ?_⟩
  · rw [h'.kept.vars, e1.1, h.kept.vars]
  · rw [h'.kept.removed, e1.2, h.kept.removed]
  · have hxl : x / 2 ≠ lit / 2 := fun e => by rw [assume_lev, if_pos e] at hl; omega
    have hsx : (s.assume lit).values x = s.values x := by
      rw [assume_values, if_neg, if_neg]
      · rintro rfl; exact hxl rfl
      · rintro rfl; exact hxl (neg_div lit)
    rw [assume_lev, if_neg hxl] at hl
    rw [hsx] at hx ⊢
    have hrx : r.values x ≠ 0 := fun e => by
      have := h.new x e hx; omega
    obtain ⟨a1, a2⟩ := h.old x hrx
    obtain ⟨b1, b2⟩ := h'.old x hrx
    exact ⟨b1.trans a1.symm, by rw [b2, ← a2]; exact hl⟩

theorem assume_phase {s : Solver} (ht : TrailInv s) {v : Nat} (hv : v ∈ s.free) (phase : Bool) :
    (if phase then 2 * v else neg (2 * v)) / 2 = v ∧
    s.values (if phase then 2 * v else neg (2 * v)) = 0 ∧
    s.Valid (if phase then 2 * v else neg (2 * v)) := by
  obtain ⟨a, b, c⟩ := (free_mem s v).1 hv
  have h1 : (if phase then 2 * v else neg (2 * v)) / 2 = v := by
    split
    · omega
    · rw [neg_div]; omega
  refine ⟨h1, ?_, ?_⟩
  · split
    · exact c
    · rw [ht.anti, c]; rfl
  · unfold Solver.Valid; rw [h1]; exact ⟨a, b⟩

/-- The warm-up with queue and heap does what `warmupLoop` does. -/
theorem Warms.ok {zero : α} {orig : Base} {G : Assignment → Prop} {r : Solver}
    (hr : PropInv orig G r) (hrp : r.propagate = r.trail.length) (hr0 : r.level = 0)
    {order : List Nat} (ho : ∀ v, v ∈ order ↔ v < r.vars ∧ r.removed v = false)
    {ds : List (List Nat × Bool)} {s u : Solver} {d d' : Decide.State α}
    (h : Warms zero ds s d u d') : Warm orig G r s → Linked s d → Decide.Reaches zero false d →
    warmupLoop order ds s = some u ∧ Warm orig G r u ∧ Linked u d' ∧ Decide.Reaches zero false d' := by
  induction h with
  | stop s d => exact fun h hL hR => ⟨rfl, h, hL, hR⟩
  | @full s d ds hu =>
    intro h hL hR
    refine ⟨?_, h, hL, hR⟩
    cases ds with
    | nil => rfl
    | cons x ds => obtain ⟨f, ph⟩ := x; unfold warmupLoop; rw [if_pos hu]
  | @step s d v d1 phase d2 ds u d' hu hp hf hw ih =>
    intro h hL hR
    have ht := h.ok.inv.trail
    obtain ⟨hL1, hR1, hv⟩ := hp.ok hL hR (ht.exists_free hu)
    obtain ⟨a1, a2, a3⟩ := assume_phase ht hv phase
    obtain ⟨hL2, hR2⟩ := hL1.decision hR1 hv a1
    obtain ⟨hL3, hR3⟩ := hf.linked (Moves.warm hr hrp hr0 h a2 a3) hL2 hR2
    obtain ⟨g1, g2⟩ := ih (Warm.decision hr hrp hr0 h a2 a3) hL3 hR3
    refine ⟨?_, g2⟩
    obtain ⟨b1, b2, b3⟩ := (free_mem s v).1 hv
    have hvo : v ∈ order := by
      rw [ho, ← h.kept.vars, ← h.kept.removed]; exact ⟨b1, b2⟩
    have hn : nextDecisionVariable s ([v].filter (order.contains ·) ++ order) = some v := by
      unfold nextDecisionVariable
      simp [hvo, b3]
    unfold warmupLoop
    rw [if_neg hu, hn]
    exact g1

theorem Warms.exist {zero : α} {orig : Base} {G : Assignment → Prop} {r : Solver}
    (hr : PropInv orig G r) (hrp : r.propagate = r.trail.length) (hr0 : r.level = 0) :
    ∀ (ps : List Bool) {s : Solver} {d : Decide.State α}, Warm orig G r s → Linked s d →
    Decide.Reaches zero false d → ∃ ds u d', ds.map (·.2) = ps ∧ Warms zero ds s d u d'
  | [], s, d, _, _, _ => ⟨[], s, d, rfl, .stop s d⟩
  | p :: ps, s, d, h, hL, hR => by
    by_cases hu : s.unassigned = 0
    · exact ⟨(p :: ps).map fun p => ([], p), s, d, by simp [Function.comp_def], .full d _ hu⟩
    · have ht := h.ok.inv.trail
      obtain ⟨v, d1, e⟩ := Picks.exist hL hR (ht.exists_free hu)
      obtain ⟨hL1, hR1, hv⟩ := Picks.ok hL hR (ht.exists_free hu) (.inl e)
      obtain ⟨a1, a2, a3⟩ := assume_phase ht hv p
      obtain ⟨hL2, hR2⟩ := hL1.decision hR1 hv a1
      have hm := Moves.warm hr hrp hr0 h a2 a3
      obtain ⟨d2, hf⟩ := Follows.exist false hm hL2 hR2
      obtain ⟨hL3, hR3⟩ := hf.linked hm hL2 hR2
      obtain ⟨ds, u, d', e1, e2⟩ := Warms.exist hr hrp hr0 ps (Warm.decision hr hrp hr0 h a2 a3) hL3 hR3
      exact ⟨([v], p) :: ds, u, d', by simp [e1], .step hu (.inl e) hf e2⟩

/-! ## Iterations -/

theorem Moves.via {orig : Base} [Deletes orig] {G : Assignment → Prop} {s s' : Solver}
    (h : PropInv orig G s) (hm : Moves s s') : Moves (s.backtrack 0) s' := by
  have hb := Moves.back h 0
  refine ⟨hb.trail', hm.trail', hm.vars.trans hb.vars.symm, hm.removed.trans hb.removed.symm,
    fun x hx h0 => ?_⟩
  by_cases hl : s.level = 0
  · have : s.backtrack 0 = s := by unfold Solver.backtrack; rw [if_pos (by omega)]
    rw [this] at hx h0 ⊢
    exact hm.root x hx h0
  · obtain ⟨f, hB⟩ := hm.trail.backtracked (m := 0) (by omega)
    have hB := hB.back
    rw [hB.values] at hx
    rw [hB.lev] at h0
    have e : (s.backtrack 0).values x = s.values x := by rw [hB.values, if_neg (by omega)]
    rw [e]
    exact hm.root x (by rw [if_neg (by omega)] at hx; exact hx) h0

theorem Linked.same {s s' : Solver} {d : Decide.State α} (h : Linked s d)
    (h1 : s'.values = s.values) (h2 : ∀ x, s'.lev x = s.lev x) (h3 : s'.vars = s.vars)
    (h4 : s'.removed = s.removed) : Linked s' d := by
  refine ⟨by rw [h1]; exact h.assigned, fun v => ?_⟩
  rw [h.active]
  unfold Solver.inUse Solver.rootValued
  rw [h1, h2, h3, h4]

theorem switch_ok {zero : α} {s : Solver} {d : Decide.State α} (hL : Linked s d)
    (hR : Decide.Reaches zero false d) (hex : ∃ v, v ∈ s.free) :
    ∃ d', switchMode zero d = some d' ∧ Linked s d' ∧ Decide.Reaches zero false d' ∧
      d'.stable = !d.stable := by
  obtain ⟨l, hi⟩ := Decide.reaches_inv hR
  obtain ⟨w, hw⟩ := hex
  have hw := hL.free.2 hw
  unfold switchMode
  cases hd : d.stable with
  | false =>
    obtain ⟨d', e, _, a, b⟩ := Decide.toStable_spec hi
    have e : Decide.exec zero d (.toStable) = some d' := e
    refine ⟨d', e, ⟨by rw [b]; exact hL.assigned, by rw [a]; exact hL.active⟩, hR.step (op := .toStable) hd e, ?_⟩
    obtain ⟨_, _, rfl⟩ := Option.map_eq_some_iff.1 e
    rfl
  | true =>
    obtain ⟨d', e, _, a, b⟩ := Decide.toFocused_spec hi ⟨w, hw.1⟩
    have e : Decide.exec zero d (.toFocused) = some d' := e
    refine ⟨d', e, ⟨by rw [b]; exact hL.assigned, by rw [a]; exact hL.active⟩,
      hR.step (op := .toFocused) ⟨hd, w, hw.1⟩ e, ?_⟩
    obtain ⟨_, _, rfl⟩ := Option.map_eq_some_iff.1 e
    rfl

/-- One iteration keeps solver and decision variables linked. -/
theorem JointStep.ok {zero : α} {orig : Base} [Deletes orig] {G : Assignment → Prop} {o : Oracle}
    {t t' : Search} {d d' : Decide.State α} (h : Between orig G t.s) (hL : Linked t.s d)
    (hR : Decide.Reaches zero false d) (hs : JointStep zero o t d t' d') :
    Between orig G t'.s ∧ Linked t'.s d' ∧ Decide.Reaches zero false d' := by
  obtain ⟨ho, hit, d1, hf, hA⟩ := hs
  have hmp := Moves.propagate h.prop
  obtain ⟨hL1, hR1⟩ := hf.linked hmp hL hR
  have hok := iteration_ok h (o := o) ho
  rw [hit] at hok
  refine ⟨hok.1, ?_⟩
  have hbt := hok.1
  clear hok hf
  have hp := searchPropagate_ok h.prop
  have hfl := searchPropagate_flushed (s := t.s)
  have hc := h.consistent
  unfold iteration at hit
  unfold After at hA
  cases hres : searchPropagate t.s with
  | mk s c =>
    rw [hres] at hp hA hL1 hmp hfl hit
    simp only at hp hA hL1 hmp hit
    obtain ⟨hsame, hok, hlev, hp⟩ := hp
    cases c with
    | some c =>
      simp only at hp hA hit
      by_cases h0 : t.s.level = 0
      · rw [if_pos h0] at hp
        have ha : analyze s c = some (s, 20) := by unfold analyze; rw [hp]; rfl
        rw [ha] at hit
        cases hit
      · rw [if_neg h0] at hp
        obtain ⟨hi, hco, k, hk, hf⟩ := hp
        have hAi := AInv.of_conflict hok (by omega) hco hk hf
        obtain ⟨s', r, ha, hr⟩ := analyze_ok (hi.trans hc) hAi
        rw [ha] at hit
        rcases hr with ⟨rfl, h1, h2⟩ | ⟨rfl, h1, h2, h3⟩
        · simp only at hit
          rw [if_pos trivial] at hit
          obtain rfl := Outcome.next.inj hit
          exact hA.linked (.kept hok.inv.trail h1.ok.inv.trail h2) hL1 hR1
        · cases hit
    | none =>
      simp only at hp hA hit
      obtain ⟨hP, hfull, hi⟩ := hp
      have ht := hP.ok.inv.trail
      by_cases h1 : s.iterating = true
      · rw [if_pos h1] at hit hA
        obtain rfl := Outcome.next.inj hit
        subst hA
        exact ⟨hL1.congr rfl rfl rfl rfl, hR1⟩
      · rw [if_neg h1] at hit hA
        by_cases h2 : s.unassigned = 0
        · rw [if_pos h2] at hit; cases hit
        · rw [if_neg h2] at hit
          have hex := ht.exists_free h2
          by_cases h3 : (t.flagged || o.request) = true
          · rw [if_pos h3] at hit; cases hit
          · rw [if_neg h3] at hit
            cases hred : o.reducing with
            | some refs =>
              rw [hred] at hit hA
              simp only at hit hA
              by_cases hr : s.unflushed ≠ 0 ∧ s.rootConflict = true
              · rw [if_pos hr] at hit; cases hit
              · rw [if_neg hr] at hit
                obtain ⟨g1, g2, g3, g4⟩ := reduce_ok hP hfull (fun e => hfl rfl e) hr
                  (hi.trans hc) refs o.collecting
                rw [if_pos g3] at hit
                obtain rfl := Outcome.next.inj hit
                simp only at hA ⊢
                have hm : Moves s (reduce s refs o.collecting).1 :=
                  ⟨ht, g1.ok.inv.trail, g2.vars, g2.removed, g2.root⟩
                by_cases hu : s.unflushed ≠ 0
                · rw [if_pos hu] at hA
                  obtain ⟨d2, hA1, hA2⟩ := hA
                  obtain ⟨hL2, hR2⟩ := hA1.linked (.back hP 0) hL1 hR1
                  exact hA2.linked (hm.via hP) hL2 hR2
                · rw [if_neg hu] at hA
                  subst hA
                  obtain ⟨e1, e2⟩ := g2.still (Classical.not_not.1 hu)
                  exact ⟨hL1.same e1 e2 g2.vars g2.removed, hR1⟩
            | none =>
              rw [hred] at hit hA
              simp only at hit hA
              by_cases h4 : o.switching = true
              · rw [if_pos h4] at hit hA
                obtain rfl := Outcome.next.inj hit
                obtain ⟨d2, e, hL2, hR2, _⟩ := switch_ok hL1 hR1 hex
                obtain rfl := Option.some.inj (hA.symm.trans e)
                exact ⟨hL2, hR2⟩
              · rw [if_neg h4] at hit hA
                cases hrs : o.restarting with
                | some n =>
                  rw [hrs] at hit hA
                  simp only at hit hA
                  obtain rfl := Outcome.next.inj hit
                  obtain ⟨v, d2, hpk, hA⟩ := hA
                  have : Linked s d2 ∧ Decide.Reaches zero false d2 := by
                    rcases hpk with hpk | rfl
                    · obtain ⟨a, b, _⟩ := hpk.ok hL1 hR1 hex
                      exact ⟨a, b⟩
                    · exact ⟨hL1, hR1⟩
                  exact hA.linked (.back hP n) this.1 this.2
                | none =>
                  rw [hrs] at hit hA
                  simp only at hit hA
                  by_cases h5 : o.reordering = true
                  · rw [if_pos h5] at hit hA
                    obtain rfl := Outcome.next.inj hit
                    obtain ⟨a, b, c⟩ := calls_none hA rfl hR1
                    exact ⟨⟨by rw [c]; exact hL1.assigned, by rw [b]; exact hL1.active⟩, a⟩
                  · rw [if_neg h5] at hit hA
                    by_cases h6 : o.rephasing = true
                    · rw [if_pos h6] at hit hA
                      obtain ⟨d2, d3, hA1, hA2, hA3⟩ := hA
                      obtain ⟨hL2, hR2⟩ := hA1.linked (.back hP 0) hL1 hR1
                      obtain ⟨hL3, hR3⟩ := hA2.linked (.flush hP) hL2 hR2
                      by_cases hr : s.rootConflict = true
                      · rw [if_pos hr] at hit
                        split at hit <;> cases hit
                      · rw [if_neg hr] at hit
                        obtain ⟨g1, gp, g2, g0⟩ := flushToRoot_ok hP hfull (by simpa using hr)
                        cases hwm : o.warming with
                        | none =>
                          rw [hwm] at hit hA3
                          simp only at hit hA3
                          obtain rfl := Outcome.next.inj hit
                          subst hA3
                          exact ⟨hL3, hR3⟩
                        | some ds =>
                          rw [hwm] at hit hA3
                          simp only at hit hA3
                          obtain ⟨u, d4, hw, hA4⟩ := hA3
                          have ho' : ∀ v, v ∈ o.order ↔ v < s.flushToRoot.vars ∧
                              s.flushToRoot.removed v = false := fun v => by
                            rw [g2.vars, g2.removed, hmp.vars, hmp.removed]; exact ho v
                          obtain ⟨w1, w2, hL4, hR4⟩ := hw.ok g1 gp g0 ho' (.refl g1 gp g0) hL3 hR3
                          have e : warmup o.order ds s.flushToRoot = some (u.backtrack 0) := by
                            unfold warmup; rw [w1]; rfl
                          rw [e] at hit
                          obtain rfl := Outcome.next.inj hit
                          obtain ⟨w3, w4⟩ := w2.finish g1 gp g0
                          refine hA4.linked ?_ hL4 hR4
                          exact ⟨w2.ok.inv.trail, w3.ok.inv.trail,
                            w4.kept.vars.trans w2.kept.vars.symm,
                            w4.kept.removed.trans w2.kept.removed.symm, fun x hx h0 => by
                              have hrx : s.flushToRoot.values x ≠ 0 := fun e => by
                                have := w2.new x e hx; omega
                              obtain ⟨a1, a2⟩ := w2.old x hrx
                              rw [a2] at h0
                              obtain ⟨b1, b2⟩ := w4.kept.root x hrx h0
                              exact ⟨b1.trans a1.symm, b2⟩⟩
                    · rw [if_neg h6] at hit hA
                      by_cases h7 : limitHit t.conflictLimit s.conflicts = true
                      · rw [if_pos h7] at hit; cases hit
                      · rw [if_neg h7] at hit
                        by_cases h8 : limitHit t.decisionLimit s.decisions = true
                        · rw [if_pos h8] at hit; cases hit
                        · rw [if_neg h8] at hit
                          obtain ⟨v, d2, hpk, hv, rfl⟩ := hA
                          obtain ⟨hL2, hR2, hfr⟩ := hpk.ok hL1 hR1 hex
                          obtain ⟨a1, a2, a3⟩ := assume_phase ht hfr o.phase
                          have hn : nextDecisionVariable s o.order = some v := by
                            unfold nextDecisionVariable
                            cases hor : o.order with
                            | nil => rw [hor] at hv; cases hv
                            | cons w ws =>
                              rw [hor] at hv
                              obtain rfl := Option.some.inj hv
                              rw [List.find?_cons_of_pos]
                              have := ((free_mem s w).1 hfr).2.2
                              simp [this]
                          have e : s.decide o.order o.phase =
                              some (({ s with decisions := s.decisions + 1 } : Solver).assume
                                (if o.phase then 2 * v else neg (2 * v))) := by
                            unfold Solver.decide; rw [hn]
                          rw [e] at hit
                          obtain rfl := Outcome.next.inj hit
                          exact Linked.decision (s := { s with decisions := s.decisions + 1 })
                            (hL2.congr rfl rfl rfl rfl) hR2 hfr a1

theorem JointRun.ok {zero : α} {orig : Base} [Deletes orig] {G : Assignment → Prop}
    {t t' : Search} {d d' : Decide.State α} (h : Between orig G t.s) (hL : Linked t.s d)
    (hR : Decide.Reaches zero false d) (hs : JointRun zero t d t' d') :
    Between orig G t'.s ∧ Linked t'.s d' ∧ Decide.Reaches zero false d' := by
  induction hs with
  | refl => exact ⟨h, hL, hR⟩
  | step _ hj ih => exact hj.ok ih.1 ih.2.1 ih.2.2

/-- All variables taking part. -/
def Solver.allVars (s : Solver) : List Nat := (List.range s.vars).filter fun v => !s.removed v

theorem mem_allVars {s : Solver} {v : Nat} : v ∈ s.allVars ↔ v < s.vars ∧ s.removed v = false := by
  unfold Solver.allVars; simp

/-- From a linked state every iteration can be made with queue and heap: whatever the other
heuristics answer, there is an order of decisions that these produce. -/
theorem joint_progress {zero : α} {orig : Base} [Deletes orig] {G : Assignment → Prop}
    {t : Search} {d : Decide.State α} (h : Between orig G t.s) (hL : Linked t.s d)
    (hR : Decide.Reaches zero false d) (o : Oracle) :
    ∃ order warming, warming.map (·.map (·.2)) = o.warming.map (·.map (·.2)) ∧
      ((∃ t' d', JointStep zero { o with order := order, warming := warming } t d t' d') ∨
       (∃ t' res, iteration { o with order := order, warming := warming } t = .done t' res ∧
          Answer orig G t' res) ∨
       (iteration { o with order := order, warming := warming } t = .stuck ∧
          t.s.loose = true ∧ o.localSearch = true)) := by
  have hmp := Moves.propagate h.prop
  obtain ⟨d1, hf1⟩ := Follows.exist false hmp hL hR
  obtain ⟨hL1, hR1⟩ := hf1.linked hmp hL hR
  have hp := searchPropagate_ok h.prop
  have hfl := searchPropagate_flushed (s := t.s)
  have hc := h.consistent
  -- it suffices to find an order with the remaining calls
  suffices hmain : ∃ order warming, (∀ v, v ∈ order ↔ v < t.s.vars ∧ t.s.removed v = false) ∧
      warming.map (·.map (·.2)) = o.warming.map (·.map (·.2)) ∧
      ∀ t', iteration { o with order := order, warming := warming } t = .next t' →
        ∃ d', After zero { o with order := order, warming := warming } (searchPropagate t.s).1
          (searchPropagate t.s).2 t'.s d1 d' by
    obtain ⟨order, warming, ho, hw, hmain⟩ := hmain
    refine ⟨order, warming, hw, ?_⟩
    have hok := iteration_ok h (o := { o with order := order, warming := warming }) ho
    cases hit : iteration { o with order := order, warming := warming } t with
    | next t' =>
      obtain ⟨d', hA⟩ := hmain t' hit
      exact .inl ⟨t', d', ho, hit, d1, hf1, hA⟩
    | done t' res =>
      rw [hit] at hok
      exact .inr (.inl ⟨t', res, rfl, hok.1⟩)
    | stuck =>
      rw [hit] at hok
      refine .inr (.inr ⟨rfl, hok.1, ?_⟩)
      have h2 := hok.2
      unfold Oracle.localSearch at h2 ⊢
      simp only at h2
      have : warming.isSome = o.warming.isSome := by
        have := congrArg Option.isSome hw
        simpa using this
      rw [← this]; exact h2
  cases hres : searchPropagate t.s with
  | mk s c =>
    rw [hres] at hp hL1 hmp hfl
    simp only at hp hL1 hmp
    obtain ⟨hsame, hok, hlev, hp⟩ := hp
    have hall : ∀ v, v ∈ t.s.allVars ↔ v < t.s.vars ∧ t.s.removed v = false := fun v => mem_allVars
    cases c with
    | some c =>
      refine ⟨t.s.allVars, o.warming, hall, rfl, fun t' hit => ?_⟩
      unfold iteration at hit
      rw [hres] at hit
      simp only at hp hit
      by_cases h0 : t.s.level = 0
      · rw [if_pos h0] at hp
        have ha : analyze s c = some (s, 20) := by unfold analyze; rw [hp]; rfl
        rw [ha] at hit
        cases hit
      · rw [if_neg h0] at hp
        obtain ⟨hi, hco, k, hk, hf⟩ := hp
        have hAi := AInv.of_conflict hok (by omega) hco hk hf
        obtain ⟨s', r, ha, hr⟩ := analyze_ok (hi.trans hc) hAi
        rw [ha] at hit
        rcases hr with ⟨rfl, h1, h2⟩ | ⟨rfl, h1, h2, h3⟩
        · simp only at hit
          rw [if_pos trivial] at hit
          obtain rfl := Outcome.next.inj hit
          exact Follows.exist true (.kept hok.inv.trail h1.ok.inv.trail h2) hL1 hR1
        · cases hit
    | none =>
      simp only at hp
      obtain ⟨hP, hfull, hi⟩ := hp
      have ht := hP.ok.inv.trail
      obtain ⟨d2, hf2⟩ := Follows.exist false (.back hP 0) hL1 hR1
      obtain ⟨hL2, hR2⟩ := hf2.linked (.back hP 0) hL1 hR1
      obtain ⟨d3, hf3⟩ := Follows.exist false (.flush hP) hL2 hR2
      obtain ⟨hL3, hR3⟩ := hf3.linked (.flush hP) hL2 hR2
      have horder : ∃ order : List Nat, (∀ v, v ∈ order ↔ v < t.s.vars ∧ t.s.removed v = false) ∧
          (s.unassigned ≠ 0 → ∃ v e, d1.next = some (v, e) ∧ order.head? = some v) := by
        by_cases hu : s.unassigned = 0
        · exact ⟨_, hall, fun g => absurd hu g⟩
        · obtain ⟨v, e, hn⟩ := Picks.exist hL1 hR1 (ht.exists_free hu)
          obtain ⟨_, _, hfr⟩ := Picks.ok hL1 hR1 (ht.exists_free hu) (.inl hn)
          obtain ⟨a, b, _⟩ := (free_mem s v).1 hfr
          rw [hmp.vars] at a
          rw [hmp.removed] at b
          refine ⟨v :: t.s.allVars, fun w => ?_, fun _ => ⟨v, e, hn, rfl⟩⟩
          rw [List.mem_cons, hall]
          exact ⟨fun g => g.elim (fun g => g ▸ ⟨a, b⟩) id, .inr⟩
      have hwarm : ∃ warming : Option (List (List Nat × Bool)),
          warming.map (·.map (·.2)) = o.warming.map (·.map (·.2)) ∧
          (s.rootConflict ≠ true → ∀ ds, warming = some ds →
            ∃ u d4, Warms zero ds s.flushToRoot d3 u d4 ∧ ∃ d5, Follows zero false u (u.backtrack 0) d4 d5) := by
        cases ho : o.warming with
        | none => exact ⟨none, rfl, fun _ ds e => by cases e⟩
        | some ds0 =>
          by_cases hr : s.rootConflict = true
          · exact ⟨some ds0, rfl, fun g => absurd hr g⟩
          · obtain ⟨g1, gp, g2, g0⟩ := flushToRoot_ok hP hfull (by simpa using hr)
            obtain ⟨ds, u, d4, e1, e2⟩ := Warms.exist g1 gp g0 (ds0.map (·.2)) (.refl g1 gp g0) hL3 hR3
            refine ⟨some ds, by simp [e1], fun _ ds' e => ?_⟩
            obtain rfl := Option.some.inj e
            refine ⟨u, d4, e2, ?_⟩
            obtain ⟨w1, w2, hL4, hR4⟩ := e2.ok g1 gp g0 (order := s.flushToRoot.allVars)
              (fun v => mem_allVars) (.refl g1 gp g0) hL3 hR3
            obtain ⟨w3, w4⟩ := w2.finish g1 gp g0
            refine Follows.exist false ?_ hL4 hR4
            exact ⟨w2.ok.inv.trail, w3.ok.inv.trail,
              w4.kept.vars.trans w2.kept.vars.symm,
              w4.kept.removed.trans w2.kept.removed.symm, fun x hx h0 => by
                have hrx : s.flushToRoot.values x ≠ 0 := fun e => by
                  have := w2.new x e hx; omega
                obtain ⟨a1, a2⟩ := w2.old x hrx
                rw [a2] at h0
                obtain ⟨b1, b2⟩ := w4.kept.root x hrx h0
                exact ⟨b1.trans a1.symm, b2⟩⟩
      obtain ⟨order, ho, hdec⟩ := horder
      obtain ⟨warming, hw, hws⟩ := hwarm
      refine ⟨order, warming, ho, hw, fun t' hit => ?_⟩
      unfold iteration at hit
      unfold After
      rw [hres] at hit
      simp only at hit ⊢
      by_cases h1 : s.iterating = true
      · simp only [if_pos h1]; exact ⟨_, rfl⟩
      · rw [if_neg h1] at hit
        simp only [if_neg h1]
        by_cases h2 : s.unassigned = 0
        · rw [if_pos h2] at hit; cases hit
        · rw [if_neg h2] at hit
          have hex := ht.exists_free h2
          by_cases h3 : (t.flagged || o.request) = true
          · rw [if_pos h3] at hit; cases hit
          · rw [if_neg h3] at hit
            cases hred : o.reducing with
            | some refs =>
              rw [hred] at hit
              simp only at hit ⊢
              by_cases hr : s.unflushed ≠ 0 ∧ s.rootConflict = true
              · rw [if_pos hr] at hit; cases hit
              · rw [if_neg hr] at hit
                obtain ⟨g1, g2, g3, g4⟩ := reduce_ok hP hfull (fun e => hfl rfl e) hr
                  (hi.trans hc) refs o.collecting
                rw [if_pos g3] at hit
                obtain rfl := Outcome.next.inj hit
                simp only
                have hm : Moves s (reduce s refs o.collecting).1 :=
                  ⟨ht, g1.ok.inv.trail, g2.vars, g2.removed, g2.root⟩
                by_cases hu : s.unflushed ≠ 0
                · simp only [if_pos hu]
                  obtain ⟨d', hA2⟩ := Follows.exist false (hm.via hP) hL2 hR2
                  exact ⟨d', d2, hf2, hA2⟩
                · simp only [if_neg hu]; exact ⟨_, rfl⟩
            | none =>
              rw [hred] at hit
              simp only at hit ⊢
              by_cases h4 : o.switching = true
              · simp only [if_pos h4]
                obtain ⟨d2, e, hL2, hR2, _⟩ := switch_ok hL1 hR1 hex
                exact ⟨d2, e⟩
              · rw [if_neg h4] at hit
                simp only [if_neg h4]
                cases hrs : o.restarting with
                | some n =>
                  rw [hrs] at hit
                  simp only at hit ⊢
                  obtain rfl := Outcome.next.inj hit
                  obtain ⟨d', hA⟩ := Follows.exist false (.back hP n) hL1 hR1
                  exact ⟨d', 0, d1, .inr rfl, hA⟩
                | none =>
                  rw [hrs] at hit
                  simp only at hit ⊢
                  by_cases h5 : o.reordering = true
                  · simp only [if_pos h5]; exact ⟨_, .nil _⟩
                  · rw [if_neg h5] at hit
                    simp only [if_neg h5]
                    by_cases h6 : o.rephasing = true
                    · rw [if_pos h6] at hit
                      simp only [if_pos h6]
                      by_cases hr : s.rootConflict = true
                      · rw [if_pos hr] at hit
                        split at hit <;> cases hit
                      · cases hwm : warming with
                        | none => exact ⟨d3, d2, d3, hf2, hf3, rfl⟩
                        | some ds =>
                          obtain ⟨u, d4, w1, d5, w2⟩ := hws hr ds hwm
                          exact ⟨d5, d2, d3, hf2, hf3, u, d4, w1, w2⟩
                    · simp only [if_neg h6]
                      obtain ⟨v, e, hn, hv⟩ := hdec h2
                      exact ⟨_, v, e, .inl hn, hv, rfl⟩

end Verif.Core
