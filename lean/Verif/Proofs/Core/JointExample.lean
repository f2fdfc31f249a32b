import Verif.Proofs.Core.JointInit
import Verif.Proofs.Whole.Reach
import Verif.Proofs.Examples
import Mathlib.Data.Nat.Basic

/-!
# Executable runs of the search loop with queue and heap, for examples
-/

namespace Verif.Core

open Verif.Spec
open Verif.Model

def runOps (ops : List (Decide.Op Nat)) (d : Decide.State Nat) : Option (Decide.State Nat) :=
  match ops with
  | [] => some d
  | op :: ops =>
    match Decide.exec 0 d op with
    | none => none
    | some d => runOps ops d

theorem runOps_calls : ∀ {ops : List (Decide.Op Nat)} {d d' : Decide.State Nat} (b : Bool),
    runOps ops d = some d' → Calls 0 b ops d d'
  | [], d, d', b, h => by obtain rfl := Option.some.inj h; exact .nil _
  | op :: ops, d, d', b, h => by
    unfold runOps at h
    split at h
    · cases h
    · rename_i e
      exact .call e (runOps_calls b h)

def followOps (s s' : Solver) : List (Decide.Op Nat) :=
  (undone s s').map .unassign ++ ((redone s s').map .assign ++ (newlyFixed s s').map .deactivate)

theorem followOps_follows {s s' : Solver} {d d' : Decide.State Nat} (b : Bool)
    (h : runOps (followOps s s') d = some d') : Follows 0 b s s' d d' :=
  ⟨_, _, _, .refl _, .refl _, .refl _, runOps_calls b h⟩

/-- An iteration with a decision, or with a conflict and no bumping. -/
def exJoint (order : List Nat) (t : Search) (d : Decide.State Nat) :
    Option (Search × Decide.State Nat) :=
  if exFair t.s [exDecide order true] then
    match runOps (followOps t.s (searchPropagate t.s).1) d with
    | none => none
    | some d1 =>
      match iteration (exDecide order true) t with
      | .next t' =>
        match (searchPropagate t.s).2 with
        | some _ => (runOps (followOps (searchPropagate t.s).1 t'.s) d1).map (t', ·)
        | none =>
          if (searchPropagate t.s).1.iterating then some (t', d1)
          else
            match d1.next with
            | none => none
            | some (v, d2) => if order.head? = some v then some (t', d2.assign v) else none
      | _ => none
  else none

theorem exJoint_sound {order : List Nat} {t t' : Search} {d d' : Decide.State Nat}
    (h : exJoint order t d = some (t', d')) : JointStep 0 (exDecide order true) t d t' d' := by
  unfold exJoint at h
  split at h
  · rename_i hf
    have hfair := exFair_sound hf (exDecide order true) (by simp)
    split at h
    · cases h
    · rename_i d1 e1
      split at h
      · rename_i t1 hit
        cases hc : (searchPropagate t.s).2 with
        | some c =>
          rw [hc] at h
          simp only at h
          obtain ⟨d2, e2, e3⟩ := Option.map_eq_some_iff.1 h
          obtain ⟨rfl, rfl⟩ := Prod.mk.inj e3
          refine ⟨hfair, hit, d1, followOps_follows _ e1, ?_⟩
          unfold After
          rw [hc]
          exact followOps_follows _ e2
        | none =>
          rw [hc] at h
          simp only at h
          by_cases hi : (searchPropagate t.s).1.iterating = true
          · rw [if_pos hi] at h
            obtain ⟨rfl, rfl⟩ := Prod.mk.inj (Option.some.inj h)
            refine ⟨hfair, hit, d1, followOps_follows _ e1, ?_⟩
            unfold After
            rw [hc]
            simp only
            rw [if_pos hi]
            trivial
          · rw [if_neg hi] at h
            split at h
            · cases h
            · rename_i v d2 en
              split at h
              · rename_i ho
                obtain ⟨rfl, rfl⟩ := Prod.mk.inj (Option.some.inj h)
                refine ⟨hfair, hit, d1, followOps_follows _ e1, ?_⟩
                unfold After
                rw [hc]
                simp only
                rw [if_neg hi]
                exact ⟨v, d2, .inl en, ho, rfl⟩
              · cases h
      · cases h
  · cases h

/-- Several iterations; `orders` has for each one the variable decided and all others. -/
def exJoints : List (List Nat) → Search → Decide.State Nat → Option (Search × Decide.State Nat)
  | [], t, d => some (t, d)
  | order :: orders, t, d =>
    match exJoint order t d with
    | none => none
    | some (t, d) => exJoints orders t d

theorem JointRun.cons {t t1 t2 : Search} {d d1 d2 : Decide.State Nat} {o : Oracle}
    (h : JointStep 0 o t d t1 d1) (g : JointRun 0 t1 d1 t2 d2) : JointRun 0 t d t2 d2 := by
  induction g with
  | refl => exact .step .refl h
  | step _ hj ih => exact .step ih hj

theorem exJoints_sound : ∀ {orders : List (List Nat)} {t t' : Search} {d d' : Decide.State Nat},
    exJoints orders t d = some (t', d') → JointRun 0 t d t' d'
  | [], t, t', d, d', h => by
    obtain ⟨rfl, rfl⟩ := Prod.mk.inj (Option.some.inj h); exact .refl
  | order :: orders, t, t', d, d', h => by
    unfold exJoints at h
    split at h
    · cases h
    · rename_i e
      exact .cons (exJoint_sound e) (exJoints_sound h)

/-- Formula of the example for C60: `b` implies `z` and `y`, these imply `a`, and `a` and `c`
imply `e` and its negation.  As numbers: `b` is 5, `z` 3, `y` 4, `a` 1, `c` 6, `e` 2. -/
def exFresh : List Int := [-5, 3, 0, -5, 4, 0, -3, -4, 1, 0, -1, -6, 2, 0, -1, -6, -2, 0]

/-- The calls which make `a`, `e`, `z`, `y`, `b` the new variables of one run of bounded variable
addition.  Internal numbers: `b` 0, `z` 1, `y` 2, `a` 3, `c` 4, `e` 5. -/
def exFreshOps : List (Decide.Op Nat) :=
  [.enlarge 6 (fun _ => 0) (fun _ => none), .activate 4 0, .activate 3 0, .activate 5 0,
   .activate 1 0, .activate 2 0, .activate 0 0, .fresh [3, 5, 1, 2, 0]]

/-- Queue and heap after the first `k` of these calls. -/
def exQueue (k : Nat) : Decide.State Nat :=
  (runOps (exFreshOps.take k) (Decide.State.init (fun _ => none) (fun _ => none)
    (fun _ => 0) (fun _ => 0) (fun _ => none) (fun _ => 0))).getD
    (Decide.State.init (fun _ => none) (fun _ => none) (fun _ => 0) (fun _ => 0) (fun _ => none)
      (fun _ => 0))

theorem exQueue_reaches : Decide.Reaches 0 true (exQueue 8) := by
  have h0 : Decide.Reaches 0 true (exQueue 0) := .init _ _ _ _ _ _
  have h1 : Decide.Reaches 0 true (exQueue 1) :=
    h0.step (op := .enlarge 6 (fun _ => 0) (fun _ => none)) (by show 6 ≤ _; decide) rfl
  have h2 : Decide.Reaches 0 true (exQueue 2) :=
    h1.step (op := .activate 4 0) ⟨by show 4 < 6; decide, rfl⟩ rfl
  have h3 : Decide.Reaches 0 true (exQueue 3) :=
    h2.step (op := .activate 3 0) ⟨by show 3 < 6; decide, rfl⟩ rfl
  have h4 : Decide.Reaches 0 true (exQueue 4) :=
    h3.step (op := .activate 5 0) ⟨by show 5 < 6; decide, rfl⟩ rfl
  have h5 : Decide.Reaches 0 true (exQueue 5) :=
    h4.step (op := .activate 1 0) ⟨by show 1 < 6; decide, rfl⟩ rfl
  have h6 : Decide.Reaches 0 true (exQueue 6) :=
    h5.step (op := .activate 2 0) ⟨by show 2 < 6; decide, rfl⟩ rfl
  have h7 : Decide.Reaches 0 true (exQueue 7) :=
    h6.step (op := .activate 0 0) ⟨by show 0 < 6; decide, rfl⟩ rfl
  exact h7.step (op := .fresh [3, 5, 1, 2, 0]) ⟨by
    intro v hv
    simp only [List.mem_cons, List.not_mem_nil, or_false] at hv
    rcases hv with rfl | rfl | rfl | rfl | rfl <;> rfl, by decide, (by intro h; cases h)⟩ rfl

theorem exQueue_assigned : (exQueue 8).assigned = fun _ => false := rfl

theorem exQueue_active : ∀ v, (exQueue 8).active v = true ↔ v < 6 := by
  intro v
  have e : (exQueue 8).active = upd (upd (upd (upd (upd (upd (fun _ => false) 4 true) 3 true) 5 true)
      1 true) 2 true) 0 true := rfl
  rw [e]
  by_cases h0 : v = 0
  · subst h0; decide
  by_cases h1 : v = 1
  · subst h1; decide
  by_cases h2 : v = 2
  · subst h2; decide
  by_cases h3 : v = 3
  · subst h3; decide
  by_cases h4 : v = 4
  · subst h4; decide
  by_cases h5 : v = 5
  · subst h5; decide
  rw [Heap.upd_ne h0, Heap.upd_ne h2, Heap.upd_ne h1, Heap.upd_ne h5, Heap.upd_ne h3,
    Heap.upd_ne h4]
  simp; omega

/-- The same queue of variables without bounded variable addition. -/
def exPlain (k : Nat) : Decide.State Nat :=
  (runOps (([.enlarge 6 (fun _ => 0) (fun _ => none), .activate 3 0, .activate 5 0, .activate 1 0,
    .activate 2 0, .activate 0 0, .activate 4 0] : List (Decide.Op Nat)).take k)
    (Decide.State.init (fun _ => none) (fun _ => none)
    (fun _ => 0) (fun _ => 0) (fun _ => none) (fun _ => 0))).getD
    (Decide.State.init (fun _ => none) (fun _ => none) (fun _ => 0) (fun _ => 0) (fun _ => none)
      (fun _ => 0))

theorem exPlain_reaches : Decide.Reaches 0 false (exPlain 7) := by
  have h0 : Decide.Reaches 0 false (exPlain 0) := .init _ _ _ _ _ _
  have h1 : Decide.Reaches 0 false (exPlain 1) :=
    h0.step (op := .enlarge 6 (fun _ => 0) (fun _ => none)) (by show 6 ≤ _; decide) rfl
  have h2 : Decide.Reaches 0 false (exPlain 2) :=
    h1.step (op := .activate 3 0) ⟨by show 3 < 6; decide, rfl⟩ rfl
  have h3 : Decide.Reaches 0 false (exPlain 3) :=
    h2.step (op := .activate 5 0) ⟨by show 5 < 6; decide, rfl⟩ rfl
  have h4 : Decide.Reaches 0 false (exPlain 4) :=
    h3.step (op := .activate 1 0) ⟨by show 1 < 6; decide, rfl⟩ rfl
  have h5 : Decide.Reaches 0 false (exPlain 5) :=
    h4.step (op := .activate 2 0) ⟨by show 2 < 6; decide, rfl⟩ rfl
  have h6 : Decide.Reaches 0 false (exPlain 6) :=
    h5.step (op := .activate 0 0) ⟨by show 0 < 6; decide, rfl⟩ rfl
  exact h6.step (op := .activate 4 0) ⟨by show 4 < 6; decide, rfl⟩ rfl

theorem exPlain_active : ∀ v, (exPlain 7).active v = true ↔ v < 6 := by
  intro v
  have e : (exPlain 7).active = upd (upd (upd (upd (upd (upd (fun _ => false) 3 true) 5 true) 1 true)
      2 true) 0 true) 4 true := rfl
  rw [e]
  by_cases h0 : v = 0
  · subst h0; decide
  by_cases h1 : v = 1
  · subst h1; decide
  by_cases h2 : v = 2
  · subst h2; decide
  by_cases h3 : v = 3
  · subst h3; decide
  by_cases h4 : v = 4
  · subst h4; decide
  by_cases h5 : v = 5
  · subst h5; decide
  rw [Heap.upd_ne h4, Heap.upd_ne h0, Heap.upd_ne h2, Heap.upd_ne h1, Heap.upd_ne h5,
    Heap.upd_ne h3]
  simp; omega

/-- Before the search no variable has a value. -/
theorem Linked.start {t : Search} {d : Decide.State Nat} (h : Reachable t)
    (hda : d.assigned = fun _ => false) (hdv : ∀ v, d.active v = true ↔ v < 6)
    (hv : ((List.range t.s.vars).all fun v => t.s.values (2 * v) == 0 && !t.s.removed v) = true)
    (hn : t.s.vars = 6) : Linked t.s d := by
  obtain ⟨_, _, _, hb⟩ := h.between
  have ht := hb.prop.ok.inv.trail
  have hz : ∀ v, t.s.values (2 * v) = 0 := fun v => by
    apply Classical.byContradiction
    intro hne
    have := List.all_eq_true.1 hv v (List.mem_range.2 (ht.valid_var hne).1)
    simp [hne] at this
  refine ⟨fun v => ?_, fun v => ?_⟩
  · rw [hda, hz]; simp
  · rw [hdv]
    unfold Solver.inUse
    rw [rootValued_false, hz, hn]
    constructor
    · intro hlt
      have := List.all_eq_true.1 hv v (List.mem_range.2 (by omega))
      simp [hz] at this
      exact ⟨hlt, this, by simp⟩
    · exact fun h => h.1

theorem exReach_reachable {es : List Int} {t : Search} (h : exReach es [] = some t) :
    Reachable t := by
  unfold exReach at h
  cases ha : exAdd es exInit with
  | none => rw [ha] at h; cases h
  | some a =>
    rw [ha] at h
    simp only at h
    split at h
    · rename_i h0
      exact .search (exAdd_run es .nil ha) (exSteps_sound [] (.start h0.1 h0.2) h)
    · cases h

/-- What the example shows about the state after three iterations. -/
def exLost (t : Search) (d : Decide.State Nat) : Bool :=
  match runOps (followOps t.s (searchPropagate t.s).1) d with
  | none => false
  | some d => (searchPropagate t.s).2.isNone && !(searchPropagate t.s).1.iterating &&
      (searchPropagate t.s).1.unassigned == 4 && !d.stable && d.next.isNone

def exFreshCheck (t : Search) : Bool :=
  ((List.range t.s.vars).all fun v => t.s.values (2 * v) == 0 && !t.s.removed v) && t.s.vars == 6 &&
  match exJoints [[4, 0, 1, 2, 3, 5], [0, 1, 2, 3, 4, 5], [0, 1, 2, 3, 4, 5]] t (exQueue 8) with
  | none => false
  | some (t, d) => exLost t d

def exPlainCheck (t : Search) : Bool :=
  ((List.range t.s.vars).all fun v => t.s.values (2 * v) == 0 && !t.s.removed v) && t.s.vars == 6 &&
  match exJoints [[4, 0, 1, 2, 3, 5], [0, 1, 2, 3, 4, 5], [0, 1, 2, 3, 4, 5], [0, 1, 2, 3, 4, 5]] t
    (exPlain 7) with
  | none => false
  | some (t, _) => t.s.level == 2 && t.s.trail == [8, 7, 0]

end Verif.Core
