import Verif.Proofs.LuckyApi
import Verif.Proofs.Examples

/-!
# Lucky phases (C52)

Histories and formulas are as in `Props/Answers.lean`.  `Api.solveLucky` is `kissat_solve`
with the lucky phases before the search, which is what the default options do.
-/

namespace Verif.Props

open Verif.Core Verif.Spec

section
variable {options : Options} {tumble : Bool} {p q : Nat} {calls : List Call} {a a' : Api}
  {o : LuckyOptions} {os : List Oracle}

/-- C52: a lucky phase never gets stuck and returns 0, 10 or 20. -/
theorem C52_result (hrun : Run (Api.init options tumble p q) calls a) (h0 : a.searches = 0)
    (hc : a.clause = []) (hi : a.s.inconsistent = false) (enabled : Bool) :
    ∃ s res, lucky enabled a.imports a.s = some (s, res) ∧ (res = 0 ∨ res = 10 ∨ res = 20) := by
  obtain ⟨orig, hA, _⟩ := hrun.clauses h0
  obtain ⟨s, res, h1, _, h3, _⟩ := lucky_api hA hi hc enabled
  refine ⟨s, res, h1, ?_⟩
  by_cases hz : res = 0
  · exact .inl hz
  · cases h3 hz
    · exact .inr (.inl rfl)
    · exact .inr (.inr rfl)
    · exact .inl rfl

/-- C52: if a lucky phase returns 10, then every assignment which makes true the literals
returned by `kissat_value` satisfies all added clauses. -/
theorem C52_lucky_model (hrun : Run (Api.init options tumble p q) calls a) (h0 : a.searches = 0)
    (hc : a.clause = []) (hi : a.s.inconsistent = false) {enabled : Bool} {s : Solver}
    (hl : lucky enabled a.imports a.s = some (s, 10)) (σ : Nat → Bool)
    (hσ : ∀ e v, { a with s := s : Api }.value e = .ok v → v ≠ 0 → ElitTrue σ v) :
    ∀ c ∈ clausesOf (addedInts calls), ESat σ c := by
  obtain ⟨orig, hA, hcl⟩ := hrun.clauses h0
  obtain ⟨s', res, h1, h2, h3, _⟩ := lucky_api hA hi hc enabled
  rw [hl] at h1
  cases h1
  cases h3 (by decide) with
  | sat hP hfull hall =>
    exact sat_of_prop (a' := { a with s := s }) (run_inv hrun) hA hcl ⟨rfl, rfl, h2.vars⟩ hP hfull
      hall hσ

/-- C52: if a lucky phase returns 20, then no assignment satisfies the added clauses. -/
theorem C52_lucky_unsatisfiable (hrun : Run (Api.init options tumble p q) calls a)
    (h0 : a.searches = 0) (hc : a.clause = []) (hi : a.s.inconsistent = false) {enabled : Bool}
    {s : Solver} (hl : lucky enabled a.imports a.s = some (s, 20)) :
    ¬ ESatisfiable (clausesOf (addedInts calls)) := by
  obtain ⟨orig, hA, hcl⟩ := hrun.clauses h0
  obtain ⟨s', res, h1, h2, h3, _⟩ := lucky_api hA hi hc enabled
  rw [hl] at h1
  cases h1
  cases h3 (by decide) with
  | unsat h he =>
    have hi' : ImportInv { a with s := s } := ⟨by
      show a.exports.length = s.vars
      rw [h2.vars]; exact hA.imports.len, hA.imports.fwd, hA.imports.bwd⟩
    have := accepted_of hi' h
    rw [exportLiteral_congr (a' := { a with s := s }) (a := a) rfl, hcl] at this
    exact this.refutes (List.mem_map.2 ⟨[], he, rfl⟩) fun c hc e he =>
      ((mem_clausesOf _).1 c hc e he).2

/-- C52 for the whole call: an answer 10 of `kissat_solve` comes with a model, whether it
was found by one of the lucky phases or by the search after unsuccessful ones. -/
theorem C52_model (hrun : Run (Api.init options tumble p q) calls a)
    (hfair : (Call.solve os).Fair a.s) (hsolve : a.solveLucky o os = .done a' 10) (σ : Nat → Bool)
    (hσ : ∀ e v, a'.value e = .ok v → v ≠ 0 → ElitTrue σ v) :
    ∀ c ∈ clausesOf (addedInts calls), ESat σ c := by
  have h0 : a.searches = 0 := by
    unfold Api.solveLucky at hsolve
    split at hsolve
    · cases hsolve
    · split at hsolve
      · cases hsolve
      · rename_i h; exact Classical.byContradiction h
  obtain ⟨orig, hA, hcl⟩ := hrun.clauses h0
  have := solveLucky_ok (o := o) hA hfair
  rw [hsolve] at this
  obtain ⟨h1, hk, _⟩ := this
  cases h1 with
  | sat hP hfull hall => exact sat_of_prop (run_inv hrun) hA hcl hk hP hfull hall hσ

/-- C52 for the whole call: after an answer 20 the proof is accepted and contains the
empty clause, hence the formula is unsatisfiable. -/
theorem C52_unsatisfiable (hrun : Run (Api.init options tumble p q) calls a)
    (hfair : (Call.solve os).Fair a.s) (hsolve : a.solveLucky o os = .done a' 20) :
    (∃ db, Accepted (clausesOf (addedInts calls)) a'.proofLines db ∧ [] ∈ db) ∧
      ¬ ESatisfiable (clausesOf (addedInts calls)) := by
  have h0 : a.searches = 0 := by
    unfold Api.solveLucky at hsolve
    split at hsolve
    · cases hsolve
    · split at hsolve
      · cases hsolve
      · rename_i h; exact Classical.byContradiction h
  obtain ⟨orig, hA, hcl⟩ := hrun.clauses h0
  have := solveLucky_ok (o := o) hA hfair
  rw [hsolve] at this
  obtain ⟨h1, ⟨k1, k2, k3⟩, _⟩ := this
  cases h1 with
  | unsat h he =>
    have hi' : ImportInv a' := ⟨by rw [k2, k3]; exact hA.imports.len, by
      rw [k1, k2]; exact hA.imports.fwd, by rw [k1, k2]; exact hA.imports.bwd⟩
    have := accepted_of hi' h
    rw [exportLiteral_congr k2, hcl] at this
    exact ⟨⟨_, this, List.mem_map.2 ⟨[], he, rfl⟩⟩, this.refutes (List.mem_map.2 ⟨[], he, rfl⟩)
      fun c hc e he => ((mem_clausesOf _).1 c hc e he).2⟩

/-- C52 for the whole call: no undefined behaviour unless garbage is collected and local search
is used, and only 0, 10 and 20. -/
theorem C52_solve_result (hrun : Run (Api.init options tumble p q) calls a)
    (h0 : a.searches = 0) (hfair : (Call.solve os).Fair a.s) :
    (a.solveLucky o os = .stuck →
      (∃ c ∈ os, c.collecting ≠ none) ∧ ∃ c ∈ os, c.localSearch = true) ∧
      ∀ a' res, a.solveLucky o os = .done a' res → res = 0 ∨ res = 10 ∨ res = 20 := by
  obtain ⟨orig, hA, hcl⟩ := hrun.clauses h0
  have := solveLucky_ok (o := o) hA hfair
  constructor
  · intro h; rw [h] at this; exact this
  · intro a' res h
    rw [h] at this
    cases this.1
    · exact .inr (.inl rfl)
    · exact .inr (.inr rfl)
    · exact .inl rfl

end

/-- Adding the integers and running a lucky phase: the answer and the values of the
variables up to `n`. -/
def luckyRun (es : List Int) (n : Nat) : Option (Nat × List Int) :=
  match exAdd es exInit with
  | none => none
  | some a =>
    if a.searches ≠ 0 ∨ a.clause ≠ [] ∨ a.s.inconsistent = true then none
    else
      match lucky true a.imports a.s with
      | none => none
      | some (s, res) => some (res, (List.range n).map fun (i : Nat) =>
          match { a with s := s : Api }.value ((i : Int) + 1) with
          | .ok v => v
          | _ => 0)

/-- All eight clauses over three variables: no lucky phase is successful. -/
def luckyHard : List Int :=
  [1, 2, 3, 0, 1, 2, -3, 0, 1, -2, 3, 0, 1, -2, -3, 0,
   -1, 2, 3, 0, -1, 2, -3, 0, -1, -2, 3, 0, -1, -2, -3, 0]

/-- The whole call with lucky phases early and late. -/
def luckySolve (es : List Int) (os : List Oracle) : Option Nat :=
  match exAdd es exInit with
  | none => none
  | some a => if exFair a.s os then (a.solveLucky ⟨true, true, true⟩ os).result else none

theorem luckySolve_sound {es : List Int} {os : List Oracle} {r : Nat}
    (h : luckySolve es os = some r) :
    ∃ b b', Run exInit (es.map Call.add) b ∧ (Call.solve os).Fair b.s ∧
      b.solveLucky ⟨true, true, true⟩ os = .done b' r := by
  unfold luckySolve at h
  cases ha : exAdd es exInit with
  | none => rw [ha] at h; cases h
  | some b =>
    rw [ha] at h
    simp only at h
    split at h
    · rename_i hf
      refine ⟨b, ?_⟩
      cases hs : b.solveLucky ⟨true, true, true⟩ os with
      | done b' res =>
        rw [hs] at h
        simp only [Solved.result, Option.some.injEq] at h
        subst h
        have := exAdd_run es (.nil (a := exInit)) ha
        exact ⟨b', by simpa using this, exFair_sound hf, rfl⟩
      | _ => rw [hs] at h; cases h
    · cases h

/-- Every clause has a positive literal: all variables become true. -/
example : luckyRun [1, -2, 0, 2, 3, -1, 0, 3, 1, 0] 3 = some (10, [1, 2, 3]) := by decide +kernel

/-- No constant assignment, but assigning the variables to false in order. -/
example : luckyRun [1, 2, 3, 0, -1, -2, -3, 0, 1, 2, 0] 3 = some (10, [-1, 2, -3]) := by decide +kernel

/-- A failed literal and then unsatisfiable on the root level. -/
example : (luckyRun exUnsat 2).map Prod.fst = some 20 := by decide

/-- No luck: the search has to find out. -/
example : (luckyRun luckyHard 3).map Prod.fst = some 0 := by decide

example : luckySolve luckyHard (List.replicate 12 (exDecide [0, 1, 2] true)) = some 20 := by
  decide +kernel

/-- The hypotheses of `C52_unsatisfiable` after unsuccessful lucky phases. -/
example : ∃ b b' os, Run exInit (luckyHard.map Call.add) b ∧ (Call.solve os).Fair b.s ∧
    b.solveLucky ⟨true, true, true⟩ os = .done b' 20 := by
  obtain ⟨b, b', h⟩ := luckySolve_sound (es := luckyHard)
    (os := List.replicate 12 (exDecide [0, 1, 2] true)) (r := 20) (by decide +kernel)
  exact ⟨b, b', _, h⟩

/-- The hypotheses of `C52_model`. -/
example : ∃ b b' os, Run exInit (exSat.map Call.add) b ∧ (Call.solve os).Fair b.s ∧
    b.solveLucky ⟨true, true, true⟩ os = .done b' 10 := by
  obtain ⟨b, b', h⟩ := luckySolve_sound (es := exSat) (os := []) (r := 10) (by decide +kernel)
  exact ⟨b, b', _, h⟩

/-- C09 does not hold after an answer found by a lucky phase: the number of searches is
still zero, hence neither `kissat_add` nor `kissat_solve` reject further calls
although the instance has been solved. -/
theorem C52_add_after_answer_accepted :
    ∃ a a', Run exInit [.add 1, .add 2, .add 0] a ∧
      a.solveLucky ⟨true, true, true⟩ [] = .done a' 10 ∧ a'.s.level ≠ 0 ∧
      (∀ e, validExternal e = true → a'.add e ≠ .rejected) ∧
      a'.solveLucky ⟨true, true, true⟩ [] ≠ .rejected := by
  cases ha : exAdd [1, 2, 0] exInit with
  | none =>
    have : (exAdd [1, 2, 0] exInit).isSome = true := by decide
    rw [ha] at this; cases this
  | some a =>
    have hr := exAdd_run [1, 2, 0] (.nil (a := exInit)) ha
    have hs : (match exAdd [1, 2, 0] exInit with
      | none => false
      | some a =>
        match a.solveLucky ⟨true, true, true⟩ [] with
        | .done a' 10 => decide (a'.searches = 0 ∧ a'.clause = [] ∧ a'.s.inconsistent = false ∧
            a'.s.level ≠ 0) &&
          match a'.solveLucky ⟨true, true, true⟩ [] with
          | .rejected => false
          | _ => true
        | _ => false) = true := by decide +kernel
    rw [ha] at hs
    simp only at hs
    split at hs
    · rename_i a' heq
      rw [Bool.and_eq_true, decide_eq_true_eq] at hs
      obtain ⟨⟨h1, h2, h3, h4⟩, h5⟩ := hs
      refine ⟨a, a', hr, heq, h4, fun e he => ?_, fun h => by rw [h] at h5; cases h5⟩
      unfold Api.add
      rw [if_neg (by rw [h1]; decide)]
      rw [he]
      split
      · intro h; cases h
      · intro h; cases h
    · cases hs

end Verif.Props
