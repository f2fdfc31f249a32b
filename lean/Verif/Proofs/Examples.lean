import Verif.Model.WholeReach

/-! # Concrete runs, used beside the theorems -/

namespace Verif.Core

/-- Default values of the options (options.h). -/
def exOptions : Options :=
  ⟨true, false, true, 100, true, true, 1000, 3, 4⟩

def exInit : Api := Api.init exOptions true 100 500

/-- Adding the integers one after the other. -/
def exAdd : List Int → Api → Option Api
  | [], a => some a
  | e :: es, a =>
    match a.add e with
    | .ok b => exAdd es b
    | _ => none

/-- An iteration in which the heuristics only decide. -/
def exDecide (order : List Nat) (phase : Bool) : Oracle :=
  ⟨false, none, none, false, none, false, false, false, none, order, phase⟩

def exFair (s : Solver) (os : List Oracle) : Bool :=
  os.all fun o => o.order.all (fun v => decide (v < s.vars) && !s.removed v) &&
    (List.range s.vars).all fun v => s.removed v || o.order.contains v

def Solved.result : Solved → Option Nat
  | .done _ res => some res
  | _ => none

/-- Adding the integers and solving with the given oracles. -/
def exSolve (a : Api) (es : List Int) (os : List Oracle) : Option Nat :=
  match exAdd es a with
  | none => none
  | some a => if exFair a.s os then (a.solve os).result else none

theorem exFair_sound {s : Solver} {os : List Oracle} (h : exFair s os = true) :
    (Call.solve os).Fair s := by
  intro o ho v
  unfold exFair at h
  rw [List.all_eq_true] at h
  have := h o ho
  rw [Bool.and_eq_true, List.all_eq_true, List.all_eq_true] at this
  obtain ⟨h1, h2⟩ := this
  constructor
  · intro hv
    have := h1 v hv
    simpa using this
  · rintro ⟨hv, hr⟩
    have := h2 v (List.mem_range.2 hv)
    simpa [hr] using this

theorem exAdd_run {a0 : Api} : ∀ (es : List Int) {a b : Api} {cs : List Call}, Run a0 cs a →
    exAdd es a = some b → Run a0 (cs ++ es.map Call.add) b
  | [], a, b, cs, hr, h => by
    simp only [exAdd, Option.some.injEq] at h
    subst h; simpa using hr
  | e :: es, a, b, cs, hr, h => by
    unfold exAdd at h
    cases ha : a.add e with
    | ok a' =>
      rw [ha] at h
      have := exAdd_run es (Run.snoc hr (c := .add e) trivial (.add ha)) h
      simpa using this
    | rejected => rw [ha] at h; cases h
    | undefined => rw [ha] at h; cases h

theorem exSolve_sound {a0 a : Api} {cs : List Call} {es : List Int} {os : List Oracle} {r : Nat}
    (hr : Run a0 cs a) (h : exSolve a es os = some r) :
    ∃ b b', Run a0 (cs ++ es.map Call.add) b ∧ (Call.solve os).Fair b.s ∧ b.solve os = .done b' r := by
  unfold exSolve at h
  cases ha : exAdd es a with
  | none => rw [ha] at h; cases h
  | some b =>
    rw [ha] at h
    simp only at h
    split at h
    · rename_i hf
      refine ⟨b, ?_⟩
      cases hs : b.solve os with
      | done b' res =>
        rw [hs] at h
        simp only [Solved.result, Option.some.injEq] at h
        subst h
        exact ⟨b', exAdd_run es hr ha, exFair_sound hf, rfl⟩
      | _ => rw [hs] at h; cases h
    · cases h

/-- All four clauses over two variables. -/
def exUnsat : List Int := [1, 2, 0, -1, 2, 0, 1, -2, 0, -1, -2, 0]

/-- Three clauses over three variables. -/
def exSat : List Int := [1, 2, 0, -1, 3, 0, -3, -2, 1, 0]

theorem exUnsat_20 : exSolve exInit exUnsat (List.replicate 3 (exDecide [0, 1] true)) = some 20 := by
  decide

theorem exSat_10 : exSolve exInit exSat (List.replicate 4 (exDecide [0, 1, 2] true)) = some 10 := by
  decide

/-- Iterations of the search loop. -/
def exSteps : List Oracle → Search → Option Search
  | [], t => some t
  | o :: os, t =>
    if exFair t.s [o] then
      match iteration o t with
      | .next t => exSteps os t
      | _ => none
    else none

/-- Adding the integers and performing some iterations. -/
def exReach (es : List Int) (os : List Oracle) : Option Search :=
  match exAdd es exInit with
  | none => none
  | some a =>
    if a.searches = 0 ∧ a.s.inconsistent = false then
      exSteps os ⟨a.s, a.conflictLimit, a.decisionLimit, a.flagged⟩
    else none

theorem exSteps_sound {a : Api} : ∀ (os : List Oracle) {t t' : Search}, Searching a t →
    exSteps os t = some t' → Searching a t'
  | [], t, t', ht, h => by
    simp only [exSteps, Option.some.injEq] at h
    exact h ▸ ht
  | o :: os, t, t', ht, h => by
    unfold exSteps at h
    split at h
    · rename_i hf
      cases hit : iteration o t with
      | next u =>
        rw [hit] at h
        exact exSteps_sound os (.next ht (exFair_sound hf o (by simp)) hit) h
      | _ => rw [hit] at h; cases h
    · cases h

theorem exReach_sound {es : List Int} {os : List Oracle} {P : Search → Bool}
    (h : (exReach es os).map P = some true) : ∃ t, Reachable t ∧ P t = true := by
  cases hr : exReach es os with
  | none => rw [hr] at h; cases h
  | some t =>
    rw [hr] at h
    refine ⟨t, ?_, by simpa using h⟩
    unfold exReach at hr
    cases ha : exAdd es exInit with
    | none => rw [ha] at hr; cases hr
    | some a =>
      rw [ha] at hr
      simp only at hr
      split at hr
      · rename_i h0
        exact .search (exAdd_run es .nil ha) (exSteps_sound os (.start h0.1 h0.2) hr)
      · cases hr

end Verif.Core
