import Verif.Proofs.Whole.Reach
import Verif.Proofs.History
import Verif.Proofs.Examples

/-!
# Answers, values, clauses and limits of the library (C01 - C05, C07 - C11)

A history is a list of calls; `Run (Api.init ..) calls a` says that executing them after
`kissat_init` leads to `a`.  The formula the user has added is
`clausesOf (addedInts calls)`: the added integers cut at zeros (`Spec/External.lean`).
Heuristic choices and asynchronous termination requests are the argument `os` of
`kissat_solve`; `Fair` says that the decision heuristic can see every active variable.
-/

namespace Verif.Props

open Verif.Core Verif.Spec

/-- C01 (partial: searches without inprocessing).  If `kissat_solve` returns 10 then
every assignment which makes true the literals returned by `kissat_value` satisfies all
added clauses. -/
theorem C01_search_model {options : Options} {tumble : Bool} {p q : Nat} {calls : List Call}
    {a a' : Api} {os : List Oracle} (hrun : Run (Api.init options tumble p q) calls a)
    (hfair : (Call.solve os).Fair a.s) (hsolve : a.solve os = .done a' 10) (σ : Nat → Bool)
    (hσ : ∀ e v, a'.value e = .ok v → v ≠ 0 → ElitTrue σ v) :
    ∀ c ∈ clausesOf (addedInts calls), ESat σ c :=
  answer_sat hrun hfair hsolve hσ

/-- There always is such an assignment, so the formula is satisfiable. -/
theorem C01_search_satisfiable {options : Options} {tumble : Bool} {p q : Nat}
    {calls : List Call} {a a' : Api} {os : List Oracle}
    (hrun : Run (Api.init options tumble p q) calls a)
    (hfair : (Call.solve os).Fair a.s) (hsolve : a.solve os = .done a' 10) :
    ∃ σ : Nat → Bool, (∀ e v, a'.value e = .ok v → v ≠ 0 → ElitTrue σ v) ∧
      ∀ c ∈ clausesOf (addedInts calls), ESat σ c := by
  let σ : Nat → Bool := fun n =>
    match a'.imports[n]? with
    | some i => decide (a'.s.values i.lit > 0)
    | none => false
  refine ⟨σ, fun e v hv hne => ?_, answer_sat hrun hfair hsolve (fun e v hv hne => ?_)⟩ <;>
  · unfold Api.value at hv
    split at hv
    · cases hv
    · simp only at hv
      split at hv
      · injection hv with hv; omega
      · rename_i i hi
        split at hv
        · injection hv with hv; omega
        · split at hv
          · injection hv with hv; omega
          · rename_i htmp
            injection hv with hv
            unfold ElitTrue
            by_cases hneg : e < 0
            · rw [if_pos hneg] at hv
              by_cases h2 : - a'.s.values i.lit < 0
              · rw [if_pos h2] at hv; subst hv
                simp only [σ, Int.natAbs_neg, hi]
                rw [decide_eq_decide]; omega
              · rw [if_neg h2] at hv; subst hv
                simp only [σ, hi]
                rw [decide_eq_decide]; omega
            · rw [if_neg hneg] at hv
              by_cases h2 : a'.s.values i.lit < 0
              · rw [if_pos h2] at hv; subst hv
                simp only [σ, Int.natAbs_neg, hi]
                rw [decide_eq_decide]; omega
              · rw [if_neg h2] at hv; subst hv
                simp only [σ, hi]
                rw [decide_eq_decide]; omega

example : ∃ a a' os, Run (Api.init exOptions true 100 500) (exSat.map Call.add) a ∧
    (Call.solve os).Fair a.s ∧ a.solve os = .done a' 10 ∧
    clausesOf (addedInts (exSat.map Call.add)) = [[1, 2], [-1, 3], [-3, -2, 1]] := by
  obtain ⟨b, b', h1, h2, h3⟩ := exSolve_sound (a0 := exInit) .nil exSat_10
  exact ⟨b, b', _, h1, h2, h3, by decide⟩

/-- C02 (partial: searches without inprocessing). -/
theorem C02_search_unsatisfiable {options : Options} {tumble : Bool} {p q : Nat}
    {calls : List Call} {a a' : Api} {os : List Oracle}
    (hrun : Run (Api.init options tumble p q) calls a)
    (hfair : (Call.solve os).Fair a.s) (hsolve : a.solve os = .done a' 20) :
    ¬ ESatisfiable (clausesOf (addedInts calls)) := by
  obtain ⟨db, h1, h2⟩ := answer_unsat hrun hfair hsolve
  exact h1.refutes h2 fun c hc e he => ((mem_clausesOf _).1 c hc e he).2

example : ∃ a a' os, Run (Api.init exOptions true 100 500) (exUnsat.map Call.add) a ∧
    (Call.solve os).Fair a.s ∧ a.solve os = .done a' 20 ∧
    clausesOf (addedInts (exUnsat.map Call.add)) = [[1, 2], [-1, 2], [1, -2], [-1, -2]] := by
  obtain ⟨b, b', h1, h2, h3⟩ := exSolve_sound (a0 := exInit) .nil exUnsat_20
  exact ⟨b, b', _, h1, h2, h3, by decide⟩

/-- C03: after every history the proof is accepted: every added line has the RUP property
with respect to the clauses present at that point and every deleted clause is present. -/
theorem C03_proof_accepted {options : Options} {tumble : Bool} {p q : Nat} {calls : List Call}
    {a : Api} (hrun : Run (Api.init options tumble p q) calls a) :
    ∃ db, Accepted (clausesOf (addedInts calls)) a.proofLines db := by
  obtain ⟨orig, db, h1, h2⟩ := (run_more hrun).proof
  have := accepted_of (run_inv hrun).imports h2
  rw [h1] at this
  exact ⟨_, this⟩

theorem RupReplay.prefix {orig : List (List Nat)} {l1 : List Spec.Line} :
    ∀ {l2 : List Spec.Line} {db : List (List Nat)}, RupReplay orig (l1 ++ l2) db →
      ∃ db1, RupReplay orig l1 db1 := by
  intro l2
  rw [← List.reverse_reverse l2]
  induction l2.reverse with
  | nil => intro db h; exact ⟨db, by simpa using h⟩
  | cons x r ih =>
    intro db h
    rw [List.reverse_cons, ← List.append_assoc] at h
    generalize hl : l1 ++ r.reverse ++ [x] = l at h
    cases h with
    | nil => simp at hl
    | add h _ =>
      have := List.append_inj_left' hl rfl
      exact ih (this ▸ h)
    | delete h _ =>
      have := List.append_inj_left' hl rfl
      exact ih (this ▸ h)

/-- C03 for a single line: whatever is written before it is accepted and the line follows
by unit propagation from the clauses `db` present then. -/
theorem C03_every_line_rup {options : Options} {tumble : Bool} {p q : Nat} {calls : List Call}
    {a : Api} (hrun : Run (Api.init options tumble p q) calls a) {before after : List ProofLine}
    {c : List Int} (h : a.proofLines = before ++ [.add c] ++ after) :
    ∃ db, Accepted (clausesOf (addedInts calls)) before db ∧ RUP (ofList db) (c.map code) := by
  obtain ⟨db, hA⟩ := C03_proof_accepted hrun
  unfold Accepted at hA
  rw [h, List.map_append] at hA
  obtain ⟨db1, hB⟩ := RupReplay.prefix hA
  rw [List.map_append] at hB
  generalize hl : before.map ProofLine.coded ++ [ProofLine.add c].map ProofLine.coded = l at hB
  cases hB with
  | nil => simp at hl
  | add h1 h2 =>
    have e1 := List.append_inj_left' hl rfl
    have e2 := List.append_inj_right' hl rfl
    simp only [List.map_cons, List.map_nil, ProofLine.coded, List.cons.injEq, Spec.Line.add.injEq,
      and_true] at e2
    exact ⟨_, by unfold Accepted; rw [e1]; exact h1, e2 ▸ h2⟩
  | delete h1 h2 =>
    have e2 := List.append_inj_right' hl rfl
    simp [ProofLine.coded] at e2

/-- C03: a run ending in 20 has written (or was given) the empty clause. -/
theorem C03_empty_clause {options : Options} {tumble : Bool} {p q : Nat} {calls : List Call}
    {a a' : Api} {os : List Oracle} (hrun : Run (Api.init options tumble p q) calls a)
    (hfair : (Call.solve os).Fair a.s) (hsolve : a.solve os = .done a' 20) :
    ∃ db, Accepted (clausesOf (addedInts calls)) a'.proofLines db ∧ [] ∈ db :=
  answer_unsat hrun hfair hsolve

/-- The proof written for the four clauses over two variables: two units and the empty clause. -/
example : (match exAdd exUnsat exInit with
    | none => none
    | some a =>
      match a.solve (List.replicate 3 (exDecide [0, 1] true)) with
      | .done a' 20 => some a'.proofLines
      | _ => none) = some [.add [-1], .add [2], .add []] := by decide

/-- C04: only 0, 10 and 20 are returned and the search only gets stuck if garbage is
collected and local search is used; 0 is returned
only if `kissat_terminate` was called before or during the search, or a conflict limit or
decision limit was set and is reached. -/
theorem C04_results {options : Options} {tumble : Bool} {p q : Nat} {calls : List Call}
    {a : Api} {os : List Oracle} (hrun : Run (Api.init options tumble p q) calls a)
    (hfair : (Call.solve os).Fair a.s) :
    (a.solve os = .stuck → (∃ o ∈ os, o.collecting ≠ none) ∧ ∃ o ∈ os, o.localSearch = true) ∧
    ∀ a' res, a.solve os = .done a' res →
      res = 10 ∨ res = 20 ∨ (res = 0 ∧
        (Call.terminate ∈ calls ∨ (∃ o ∈ os, o.request = true) ∨
         (∃ n, Call.setConflictLimit n ∈ calls ∧ n ≤ a'.s.conflicts ∧
            limitHit a.conflictLimit a'.s.conflicts = true) ∨
         (∃ n, Call.setDecisionLimit n ∈ calls ∧ n ≤ a'.s.decisions ∧
            limitHit a.decisionLimit a'.s.decisions = true))) := by
  have hlim : ∀ {x : Option Nat} {n : Nat}, limitHit x n = true → ∃ L, x = some L ∧ L ≤ n := by
    intro x n h
    unfold limitHit at h
    cases x with
    | none => cases h
    | some L => exact ⟨L, rfl, by simpa using h⟩
  obtain ⟨c1, c2, c3⟩ := run_control hrun
  constructor
  · intro h
    by_cases h0 : a.searches = 0
    · obtain ⟨orig, hA, _⟩ := hrun.clauses h0
      exact solve_stuck hA hfair h
    · unfold Api.solve at h
      split at h
      · cases h
      · simp [h0] at h
  · intro a' res hs
    obtain ⟨orig, hA, _⟩ := hrun.clauses (solve_searches hs)
    obtain ⟨h1, _⟩ := solve_ok hA hfair hs
    cases h1 with
    | sat => exact .inl rfl
    | unsat => exact .inr (.inl rfl)
    | unknown h hl =>
      refine .inr (.inr ⟨rfl, ?_⟩)
      rcases hl with h | h | h | h
      · obtain ⟨L, e1, e2⟩ := hlim h
        obtain ⟨n, h1, h2⟩ := c2 L e1
        exact .inr (.inr (.inl ⟨n, h1, by omega, h⟩))
      · exact .inl (c1 h)
      · exact .inr (.inl h)
      · obtain ⟨L, e1, e2⟩ := hlim h
        obtain ⟨n, h1, h2⟩ := c3 L e1
        exact .inr (.inr (.inr ⟨n, h1, by omega, h⟩))

/-- All three results occur; 0 after a request arriving in the second iteration. -/
example : exSolve exInit exUnsat (List.replicate 3 (exDecide [0, 1] true)) = some 20 ∧
    exSolve exInit exSat (List.replicate 4 (exDecide [0, 1, 2] true)) = some 10 ∧
    exSolve exInit [1, 2, 3, 0] [exDecide [0, 1, 2] false,
      { exDecide [0, 1, 2] false with request := true }] = some 0 := by decide

/-- C05: `kissat_value` returns its argument, the negation or zero. -/
theorem C05_value_sign {a : Api} {e v : Int} (h : a.value e = .ok v) : v = e ∨ v = -e ∨ v = 0 := by
  unfold Api.value at h
  split at h
  · cases h
  · simp only at h
    split at h
    · injection h with h; exact .inr (.inr h.symm)
    · split at h
      · injection h with h; exact .inr (.inr h.symm)
      · split at h
        · injection h with h; exact .inr (.inr h.symm)
        · injection h with h
          subst h
          generalize (if e < 0 then - a.s.values _ else a.s.values _) = w
          by_cases hw : w < 0
          · rw [if_pos hw]; exact .inr (.inl rfl)
          · rw [if_neg hw]; exact .inl rfl

/-- C05: a literal and its negation give the same answer, the one of the two which is
true; so at most one of them is true. -/
theorem C05_value_neg (a : Api) (e : Int) : a.value (-e) = a.value e := by
  unfold Api.value validExternal
  rw [Int.natAbs_neg]
  split
  · rfl
  · simp only
    split
    · rfl
    · split
      · rfl
      · split
        · rfl
        · rename_i i hi hn ht
          congr 1
          rcases Int.lt_trichotomy e 0 with h | h | h
          · rw [if_neg (by omega : ¬ -e < 0), if_pos h]
            by_cases h2 : a.s.values i.lit < 0
            · rw [if_pos h2, if_neg (by omega)]; omega
            · rw [if_neg h2, if_pos (by omega)]
          · subst h; simp
          · rw [if_pos (by omega : -e < 0), if_neg (by omega : ¬ e < 0)]
            by_cases h2 : a.s.values i.lit < 0
            · rw [if_pos h2, if_neg (by omega)]
            · rw [if_neg h2, if_pos (by omega)]; omega

/-- C05: a variable that was never mentioned has value 0 (with `kissat_reserve`
variables become known without being mentioned). -/
theorem C05_unmentioned {options : Options} {tumble : Bool} {p q : Nat} {calls : List Call}
    {a : Api} (hrun : Run (Api.init options tumble p q) calls a)
    (hres : ∀ n, Call.reserve n ∉ calls) {e : Int} (he : validExternal e = true)
    (hnot : e ∉ addedInts calls ∧ -e ∉ addedInts calls) : a.value e = .ok 0 := by
  have hI := (run_inv hrun).imports
  have hM := run_more hrun
  unfold Api.value
  rw [he]
  simp only [Bool.not_true, Bool.false_eq_true, if_false]
  split
  · rfl
  · rename_i i hi
    split
    · rfl
    · rename_i him
      have him : i.imported = true := by simpa using him
      obtain ⟨v, h1, h2⟩ := hI.fwd _ _ hi him
      split
      · rfl
      · rename_i ht
        exfalso
        have hv := hM.active _ ht
        rw [h1] at hv
        have e2 : 2 * v / 2 = v := by omega
        obtain ⟨x, hx, hxv⟩ := hM.mentioned hres v (e2 ▸ hv.1) (by have := hv.2; rwa [e2] at this)
        have := (hI.export h2).1
        rw [this] at hxv
        simp at hxv
        rcases (Int.natAbs_eq_natAbs_iff.1 hxv) with h | h
        · exact hnot.1 (h ▸ hx)
        · exact hnot.2 (by rw [← h]; exact hx)

/-- Values after the search of the example: 1 and 3 are true, 2 is whatever was decided
and 5 was never mentioned. -/
example : (match exAdd exSat exInit with
    | none => none
    | some a =>
      match a.solve (List.replicate 4 (exDecide [0, 1, 2] true)) with
      | .done a' 10 => some ([1, -1, 3, 5].map fun e =>
          match a'.value e with | .ok v => v | _ => 99)
      | _ => none) = some [1, 1, 3, 0] := by decide

/-- C07: before the search the clauses, units and the inconsistency flag in the solver
have exactly the models of the added clauses.  `a.exports` names the external variable of
each internal one. -/
theorem C07_models {options : Options} {tumble : Bool} {p q : Nat} {calls : List Call}
    {a : Api} (hrun : Run (Api.init options tumble p q) calls a) (h0 : a.searches = 0)
    (σ : Nat → Bool) :
    (∀ c ∈ clausesOf (addedInts calls), ESat σ c) ↔
      (a.s.inconsistent = false ∧ SatFormula (fun v => σ (a.exports.getD v 0)) a.s.formula) := by
  obtain ⟨orig, hA, hcl⟩ := hrun.clauses h0
  have hI := hA.imports
  have hb := hA.bound
  have key : ∀ l, l / 2 < a.s.vars →
      (litTrue (fun v => σ (a.exports.getD v 0)) l ↔ ElitTrue σ (a.exportLiteral l)) := by
    intro l hl
    have hlt : l / 2 < a.exports.length := by rw [hI.len]; exact hl
    have hg := List.getElem?_eq_getElem hlt
    have h1 := (hI.bwd _ _ hg).2
    unfold litTrue ElitTrue Api.exportLiteral
    simp only [List.getD_eq_getElem?_getD, hg, Option.getD_some]
    generalize a.exports[l / 2] = e at *
    have h2 : ¬ ((e : Int) = 0) := by omega
    rw [if_neg h2]
    rcases Nat.mod_two_eq_zero_or_one l with h | h
    · rw [h, if_neg (by omega)]
      have : (0 : Int) < e := by omega
      rw [decide_eq_true this, Int.natAbs_natCast]; rfl
    · rw [h, if_pos rfl]
      have : ¬ ((0 : Int) < -e) := by omega
      rw [decide_eq_false this, Int.natAbs_neg, Int.natAbs_natCast]; rfl
  have models : (∀ c ∈ clausesOf (addedInts calls), ESat σ c) ↔
      Models orig (fun v => σ (a.exports.getD v 0)) := by
    rw [← hcl]
    constructor
    · intro h c hc
      obtain ⟨e, he, ht⟩ := h _ (List.mem_map.2 ⟨c, hc, rfl⟩)
      obtain ⟨l, hl, rfl⟩ := List.mem_map.1 he
      exact ⟨l, hl, (key l (hb c hc l hl)).2 ht⟩
    · intro h c hc
      obtain ⟨d, hd, rfl⟩ := List.mem_map.1 hc
      obtain ⟨l, hl, ht⟩ := h d hd
      exact ⟨_, List.mem_map.2 ⟨l, hl, rfl⟩, (key l (hb d hd l hl)).1 ht⟩
  rw [models]
  constructor
  · intro h
    cases hi : a.s.inconsistent with
    | true =>
      obtain ⟨db, h1, h2⟩ := hA.loaded.proof
      obtain ⟨l, hl, _⟩ := RupReplay.implied h1.2.2 h [] (h2 hi)
      cases hl
    | false =>
      refine ⟨rfl, ?_⟩
      obtain ⟨hP, _⟩ := hA.loaded.state hi
      exact PInv.formula hP.ok.proof h
  · rintro ⟨hi, h⟩
    obtain ⟨hP, _⟩ := hA.loaded.state hi
    exact hP.ok.irr _ (fun c hc => h c (irr_formula hc))

/-- A tautology, duplicated literals, a unit and clauses it satisfies or shortens: one
clause with two literals and two units are left. -/
example : (exAdd [1, -1, 0, 2, 2, 3, 0, 4, 0, 4, 5, 0, -4, 6, 6, 0] exInit).map
    (fun a => (a.s.inconsistent, a.s.arena.length, (a.s.watches 2).length, [4, 5, 6].map fun e =>
      match a.value e with | .ok v => v | _ => 99)) = some (false, 0, 1, [4, 0, 6]) := by decide

/-- C08: internal and external literals correspond one to one: exporting is injective on
the internal literals and never gives zero, commutes with negation, importing what was
exported gives the literal back and changes nothing, and a literal imported for the first
time does not disturb the others. -/
theorem C08_bijection {options : Options} {tumble : Bool} {p q : Nat} {calls : List Call}
    {a : Api} (hrun : Run (Api.init options tumble p q) calls a) :
    (∀ l k, l / 2 < a.s.vars → k / 2 < a.s.vars → a.exportLiteral l = a.exportLiteral k → l = k) ∧
    (∀ l, l / 2 < a.s.vars → a.exportLiteral l ≠ 0 ∧
      a.exportLiteral (neg l) = - a.exportLiteral l ∧
      a.importLiteral (a.exportLiteral l) = (a, l)) ∧
    (∀ e : Int, e ≠ 0 → (a.importLiteral e).2 / 2 < (a.importLiteral e).1.s.vars ∧
      (a.importLiteral e).1.exportLiteral (a.importLiteral e).2 = e ∧
      ∀ l, l / 2 < a.s.vars → (a.importLiteral e).1.exportLiteral l = a.exportLiteral l) ∧
    (∀ c ∈ clausesOf (addedInts calls), ∀ e ∈ c, ∃ l, l / 2 < a.s.vars ∧ a.exportLiteral l = e) := by
  have hI := (run_inv hrun).imports
  have hM := run_more hrun
  have ex : ∀ l, l / 2 < a.s.vars → ∃ e : Nat, a.exports[l / 2]? = some e ∧ e ≠ 0 ∧
      a.imports[e]? = some ⟨2 * (l / 2), true⟩ ∧
      a.exportLiteral l = if l % 2 = 1 then -(e : Int) else e := by
    intro l hl
    have hlt : l / 2 < a.exports.length := by rw [hI.len]; exact hl
    have hg := List.getElem?_eq_getElem hlt
    obtain ⟨h1, h2⟩ := hI.bwd _ _ hg
    refine ⟨_, hg, h2, h1, ?_⟩
    unfold Api.exportLiteral
    simp only [List.getD_eq_getElem?_getD, hg, Option.getD_some]
    rw [if_neg (by omega)]
  refine ⟨fun l k hl hk h => ?_, fun l hl => ⟨?_, exportLiteral_neg hI hl, ?_⟩, fun e he => ?_, ?_⟩
  · obtain ⟨e, a1, a2, a3, a4⟩ := ex l hl
    obtain ⟨f, b1, b2, b3, b4⟩ := ex k hk
    rw [a4, b4] at h
    have : e = f := by
      split at h <;> split at h <;> omega
    subst this
    rw [a3] at b3
    injection b3 with b3
    injection b3 with b3 _
    have : l % 2 = k % 2 := by
      split at h <;> split at h <;> omega
    omega
  · obtain ⟨e, a1, a2, a3, a4⟩ := ex l hl
    rw [a4]; split <;> omega
  · obtain ⟨e, a1, a2, a3, a4⟩ := ex l hl
    have hna : (a.exportLiteral l).natAbs = e := by rw [a4]; split <;> omega
    have hlt : e < a.imports.length := (List.getElem?_eq_some_iff.1 a3).1
    have h1 : a.importLiteral1 (a.exportLiteral l) = (a, l) := by
      unfold Api.importLiteral1
      simp only [hna]
      have hadj : a.adjustImports e = a := by
        unfold Api.adjustImports
        rw [show e + 1 - a.imports.length = 0 by omega]
        simp
      rw [hadj]
      have hg : a.imports.getD e ⟨0, false⟩ = ⟨2 * (l / 2), true⟩ := by
        rw [List.getD_eq_getElem?_getD, a3]; rfl
      rw [hg]
      simp only [if_true, hg]
      rw [a4]
      rcases Nat.mod_two_eq_zero_or_one l with h | h
      · rw [h, if_neg (by omega : ¬ ((if 0 = 1 then -(e : Int) else e) < 0)),
          show 2 * (l / 2) = l by omega]
      · rw [h, if_pos rfl, if_pos (by omega)]
        rw [show 2 * (l / 2) = neg l by unfold neg; rw [if_neg (by omega)]; omega, Spec.neg_neg]
    unfold Api.importLiteral
    split
    · exact h1
    · simp only
      rw [hna, if_pos hlt]
      exact h1
  · obtain ⟨h1, h2, h3, h4⟩ := importLiteral_ok hI he
    exact ⟨h3, h4, fun l hl => h2.export hI hl⟩
  · intro c hc e he
    obtain ⟨orig, db, h1, h2⟩ := hM.proof
    rw [← h1] at hc
    obtain ⟨d, hd, rfl⟩ := List.mem_map.1 hc
    obtain ⟨l, hl, rfl⟩ := List.mem_map.1 he
    exact ⟨l, h2.2.1 d hd l hl, rfl⟩

/-- Sparse and unordered variables with both settings of `tumble`. -/
example : (exAdd [7, -3, 0, 5, 3, 0] exInit).map (·.exports) = some [7, 3, 5] ∧
    (exAdd [7, -3, 0, 5, 3, 0] (Api.init exOptions false 100 500)).map (·.exports) =
      some [1, 2, 3, 4, 5, 6, 7] := by decide

/-- C09: literals beyond the largest variable are rejected in every state. -/
theorem C09_invalid_literal (a : Api) {e : Int} (he : 2 ^ 30 - 1 < e.natAbs) :
    a.add e = .rejected ∧ a.value e = .rejected := by
  have hv : validExternal e = false := by
    unfold validExternal externalMaxVar
    simpa using he
  have hne : e ≠ 0 := by rintro rfl; simp at he
  constructor
  · unfold Api.add
    split
    · rfl
    · simp [hv]
  · unfold Api.value; rw [hv]; rfl

/-- C09: after an answer 10 all further clauses and searches are rejected, whatever is
called in between. -/
theorem C09_after_answer {options : Options} {tumble : Bool} {p q : Nat} {calls more : List Call}
    {a a' b : Api} {os os' : List Oracle} {e : Int}
    (hrun : Run (Api.init options tumble p q) calls a)
    (hfair : (Call.solve os).Fair a.s) (hsolve : a.solve os = .done a' 10)
    (hmore : Run a' more b) : b.add e = .rejected ∧ b.solve os' = .rejected := by
  obtain ⟨orig, hA, _⟩ := hrun.clauses (solve_searches hsolve)
  obtain ⟨h1, _⟩ := solve_ok hA hfair hsolve
  have hs : a'.searches ≠ 0 := by
    cases h1 with
    | sat _ _ _ h => omega
  have := run_searches (hrun.snoc hfair (.solve hsolve)) hmore
  have hb : b.searches ≠ 0 := by omega
  constructor
  · unfold Api.add; rw [if_pos hb]
  · unfold Api.solve
    split
    · rfl
    · simp

/-- C09 (partial): an incomplete clause is rejected by `kissat_solve` if one of its
literals has no value yet.  The full statement is false, see
`C09_incomplete_clause_accepted`. -/
theorem C09_incomplete_clause_partial {options : Options} {tumble : Bool} {p q : Nat}
    {calls : List Call} {a : Api} {os : List Oracle}
    (hrun : Run (Api.init options tumble p q) calls a) (hi : a.s.inconsistent = false) {e : Int}
    (he : e ∈ pendingOf (addedInts calls)) (hval : a.value e = .ok 0) :
    a.solve os = .rejected := by
  by_cases h0 : a.searches = 0
  · obtain ⟨orig, hA, h1, h2⟩ := (run_inv hrun).loaded h0
    have hne := (mem_clausesOf (addedInts calls)).2 _ he
    rw [← h2] at he
    obtain ⟨l, hl, rfl⟩ := List.mem_map.1 he
    have hlb := hA.pending.bound l hl
    have hc := run_pending hrun h0 ⟨l, hl, ?_⟩
    · unfold Api.solve; rw [if_pos hc]
    · rw [fixed_eq hA.loaded hi]
      have ht := (hA.loaded.state hi).1.ok.inv.trail
      rw [value_of hA.imports ht hlb ((run_inv hrun).valid _ hne.1)] at hval
      injection hval with hval
      rcases Int.mul_eq_zero.1 hval with h | h
      · exact h
      · exact absurd h hne.2
  · unfold Api.solve
    split
    · rfl
    · simp

/-- The full statement is false: after the unit clause 1 the call sequence `add 1`,
`solve` is accepted although the clause is not terminated. -/
theorem C09_incomplete_clause_accepted :
    ∃ calls a os a' res, Run (Api.init exOptions true 100 500) calls a ∧
      pendingOf (addedInts calls) ≠ [] ∧ (Call.solve os).Fair a.s ∧ a.solve os = .done a' res := by
  obtain ⟨b, b', h1, h2, h3⟩ := exSolve_sound (a0 := exInit) (a := exInit) (cs := []) (r := 10)
    (es := [1, 0, 1]) (os := List.replicate 4 (exDecide [0] true)) .nil (by decide)
  exact ⟨_, b, _, b', 10, h1, by decide, h2, h3⟩

/-- C09: a call satisfying the documented preconditions is accepted: before the first
search every valid literal and zero can be added, and `kissat_solve` after a complete
clause does not abort. -/
theorem C09_legal_accepted {options : Options} {tumble : Bool} {p q : Nat} {calls : List Call}
    {a : Api} (hrun : Run (Api.init options tumble p q) calls a) (h0 : a.searches = 0) :
    (∀ e : Int, e.natAbs ≤ 2 ^ 30 - 1 → ∃ a', a.add e = .ok a') ∧
    (pendingOf (addedInts calls) = [] → ∀ os, a.solve os ≠ .rejected) ∧
    (∀ e : Int, e.natAbs ≤ 2 ^ 30 - 1 → ∃ v, a.value e = .ok v) := by
  have hvalid : ∀ e : Int, e.natAbs ≤ 2 ^ 30 - 1 → validExternal e = true := by
    intro e he
    unfold validExternal externalMaxVar
    simpa using he
  refine ⟨fun e he => ?_, fun hp os => ?_, fun e he => ?_⟩
  · unfold Api.add
    rw [if_neg (by simp [h0]), hvalid e he]
    by_cases h : e = 0
    · rw [if_neg (by simp [h])]; exact ⟨_, rfl⟩
    · rw [if_pos h, if_pos rfl]; exact ⟨_, rfl⟩
  · obtain ⟨orig, hA, h1, h2⟩ := (run_inv hrun).loaded h0
    rw [hp] at h2
    have horig : a.original = [] := List.map_eq_nil_iff.1 h2
    have hcl : a.clause = [] := by
      cases hc : a.clause with
      | nil => rfl
      | cons x r =>
        have := hA.pending.sub x (by rw [hc]; simp)
        rw [horig] at this
        cases this
    unfold Api.solve
    rw [if_neg (by simp [hcl]), if_neg (by simp [h0])]
    repeat' split
    all_goals (intro h; cases h)
  · unfold Api.value
    rw [hvalid e he]
    simp only [Bool.not_true, Bool.false_eq_true, if_false]
    repeat' split
    all_goals exact ⟨_, rfl⟩

/-- The documented rule "no clause and no second call after `kissat_solve`" is not
enforced: when the first call returns 20 because of the added clauses alone, or 0 because
of a conflict limit reached before the search starts, it is not counted. -/
theorem C09_second_solve_accepted :
    (∃ a b c, exAdd [1, 0, -1, 0] exInit = some a ∧ a.solve [] = .done b 20 ∧
      b.add 2 = .ok c ∧ (∃ d, c.add 0 = .ok d ∧ ∃ f, d.solve [] = .done f 20)) := by
  obtain ⟨a, ha⟩ : ∃ a, exAdd [1, 0, -1, 0] exInit = some a :=
    Option.isSome_iff_exists.1 (by decide)
  have hrun := exAdd_run (a0 := exInit) (cs := []) _ .nil ha
  have h0 : a.searches = 0 := by
    have := (by decide : (exAdd [1, 0, -1, 0] exInit).map (·.searches) = some 0)
    rw [ha] at this; simpa using this
  have hi : a.s.inconsistent = true := by
    have := (by decide : (exAdd [1, 0, -1, 0] exInit).map (·.s.inconsistent) = some true)
    rw [ha] at this; simpa using this
  have hc : a.clause = [] := by
    have := (by decide : (exAdd [1, 0, -1, 0] exInit).map (·.clause) = some [])
    rw [ha] at this; simpa using this
  have hs : ∀ b : Api, b.searches = 0 → b.clause = [] → b.s.inconsistent = true →
      b.solve [] = .done b 20 := by
    intro b h1 h2 h3
    unfold Api.solve; simp [h1, h2, h3]
  obtain ⟨c, hadd⟩ := (C09_legal_accepted hrun h0).1 2 (by decide)
  have hrun2 := hrun.snoc (c := .add 2) trivial (.add hadd)
  have h0c : c.searches = 0 := (add_control (run_inv hrun).imports hadd).1.trans h0
  obtain ⟨d, hd⟩ := (C09_legal_accepted hrun2 h0c).1 0 (by decide)
  refine ⟨a, a, c, ha, hs a h0 hc hi, hadd, d, hd, d, ?_⟩
  have h0d : d.searches = 0 := (add_control (run_inv hrun2).imports hd).1.trans h0c
  have hic : c.s.inconsistent = true := by
    unfold Api.add at hadd
    simp [h0, validExternal, externalMaxVar] at hadd
    rw [← hadd, (addLiteral_solver a 2).1]
    obtain ⟨n, i, x, _, hg⟩ := (importLiteral_ok (run_inv hrun).imports (e := 2) (by decide)).2.1
    rw [hg]; exact hi
  unfold Api.add at hd
  simp [h0c] at hd
  subst hd
  refine hs _ h0d rfl ?_
  show (c.addLines c.addClause).inconsistent = true
  have : c.addClause = c.s := by unfold Api.addClause; rw [if_pos hic]
  rw [this]
  unfold Api.addLines Solver.emit
  repeat' (first | exact hic | split)

/-- C10: once termination is requested the search makes no further decision: an iteration
of the loop that goes on after a request has met a conflict or was reporting a unit, and
it remembers the request. -/
theorem C10_request_seen {t t' : Search} {o : Oracle} (hr : Reachable t) (ho : o.Fair t.s)
    (hflag : (t.flagged || o.request) = true) (hit : iteration o t = .next t') :
    t'.flagged = true ∧ t'.s.decisions = t.s.decisions ∧
    ((∃ c, (searchPropagate t.s).2 = some c) ∨ (searchPropagate t.s).1.iterating = true) := by
  obtain ⟨_, _, _, hb⟩ := hr.between
  refine ⟨?_, ?_⟩
  · have := iteration_flag o t
    rw [hit] at this
    exact this.trans hflag
  · rcases iteration_decisions hb ho hit with ⟨h1, h2⟩ | ⟨_, h2, _⟩
    · exact ⟨h1, h2 hflag⟩
    · rw [hflag] at h2; cases h2

/-- C10: at the check point, that is if there is neither a conflict nor a unit to report,
the search returns: 0, or 10 if all variables have a value. -/
theorem C10_returns {t : Search} {o : Oracle} (hflag : (t.flagged || o.request) = true)
    (hc : (searchPropagate t.s).2 = none) (hi : (searchPropagate t.s).1.iterating = false) :
    ∃ t' res, iteration o t = .done t' res ∧ (res = 0 ∨ res = 10) := by
  unfold iteration
  cases hp : searchPropagate t.s with
  | mk s c =>
    rw [hp] at hc hi
    simp only at hc hi
    subst hc
    simp only [hi, Bool.false_eq_true, if_false]
    by_cases h0 : s.unassigned = 0
    · rw [if_pos h0]; exact ⟨_, _, rfl, .inr rfl⟩
    · rw [if_neg h0, if_pos hflag]; exact ⟨_, _, rfl, .inl rfl⟩

/-- C10, C11: a search that was started clears the request and both limits. -/
theorem C10_C11_cleared {options : Options} {tumble : Bool} {p q : Nat} {calls : List Call}
    {a a' : Api} {os : List Oracle} {res : Nat}
    (hrun : Run (Api.init options tumble p q) calls a)
    (hfair : (Call.solve os).Fair a.s) (hsolve : a.solve os = .done a' res)
    (hstarted : a'.searches ≠ a.searches) :
    a'.flagged = false ∧ a'.conflictLimit = none ∧ a'.decisionLimit = none := by
  obtain ⟨orig, hA, _⟩ := hrun.clauses (solve_searches hsolve)
  obtain ⟨_, _, h⟩ := solve_ok hA hfair hsolve
  rcases h with h | ⟨_, _, _, h1, h2, h3⟩
  · rw [h] at hstarted; exact absurd rfl hstarted
  · exact ⟨h3, h1, h2⟩

/-- C10 (negation): if the conflict limit is reached before the search starts, the call
returns 0 without clearing the request or the limit. -/
theorem C10_request_not_consumed :
    ∃ calls a a', Run (Api.init exOptions true 100 500) calls a ∧
      a.solve [] = .done a' 0 ∧ a'.flagged = true ∧ a'.conflictLimit = some 0 := by
  have h1 : Run (Api.init exOptions true 100 500) [.setConflictLimit 0] _ :=
    Run.snoc .nil (c := .setConflictLimit 0) trivial .setConflictLimit
  have h2 := h1.snoc (c := .terminate) trivial .terminate
  exact ⟨_, _, _, h2, rfl, rfl, rfl⟩

/-- C10 (negation): a callback installed with `kissat_set_terminate` is not consulted.
Installing it changes no result of `kissat_solve`; so with a callback that always asks
to terminate (`fun _ => 1`) the search still runs to its answer. -/
theorem C10_callback_ignored (a : Api) (f : Option (Nat → Int)) (os : List Oracle) :
    ((a.setTerminate f).solve os).result = (a.solve os).result := by
  unfold Api.solve Api.setTerminate Api.searching
  simp only
  repeat' (first | rfl | split)

example : ∃ calls a a' os, Run (Api.init exOptions true 100 500) calls a ∧
    (∃ f, a.callback = some f ∧ ∀ n, f n = 1) ∧ (Call.solve os).Fair a.s ∧
    a.solve os = .done a' 20 := by
  have h1 : Run (Api.init exOptions true 100 500) [.setTerminate (some fun _ => 1)] _ :=
    Run.snoc .nil (c := .setTerminate (some fun _ => 1)) trivial .setTerminate
  have hb : ∀ b, exAdd exUnsat (exInit.setTerminate (some fun _ => 1)) = some b →
      (∃ f, b.callback = some f ∧ ∀ n, f n = 1) := by
    intro b hb
    have : (exAdd exUnsat (exInit.setTerminate (some fun _ => 1))).map (·.callback) =
        some (some fun _ => 1) := rfl
    rw [hb] at this
    simp only [Option.map_some, Option.some.injEq] at this
    exact ⟨_, this, fun _ => rfl⟩
  obtain ⟨b, hb1⟩ : ∃ b, exAdd exUnsat (exInit.setTerminate (some fun _ => 1)) = some b :=
    Option.isSome_iff_exists.1 (by decide)
  have h2 := exAdd_run _ h1 hb1
  obtain ⟨b2, b', g1, g2, g3⟩ := exSolve_sound h1 (by decide :
    exSolve (exInit.setTerminate (some fun _ => 1)) exUnsat
      (List.replicate 3 (exDecide [0, 1] true)) = some 20)
  have := by
    have hx : exSolve (exInit.setTerminate (some fun _ => 1)) exUnsat
      (List.replicate 3 (exDecide [0, 1] true)) = some 20 := by decide
    unfold exSolve at hx
    rw [hb1] at hx
    exact hx
  simp only at this
  split at this
  · rename_i hf
    cases hs : b.solve (List.replicate 3 (exDecide [0, 1] true)) with
    | done b'' r =>
      rw [hs] at this
      simp only [Solved.result, Option.some.injEq] at this
      subst this
      exact ⟨_, b, b'', _, h2, hb b hb1, exFair_sound hf, hs⟩
    | _ => rw [hs] at this; cases this
  · cases this

/-- C11 (partial): a decision limit is never exceeded: if the limit is `L` decisions in
total then at the end there are at most `L`, unless there were more already. -/
theorem C11_decision_limit_partial {options : Options} {tumble : Bool} {p q : Nat}
    {calls : List Call} {a a' : Api} {os : List Oracle} {res L : Nat}
    (hrun : Run (Api.init options tumble p q) calls a)
    (hfair : (Call.solve os).Fair a.s) (hsolve : a.solve os = .done a' res) (h20 : res ≠ 20)
    (hL : a.decisionLimit = some L) : a'.s.decisions ≤ max L a.s.decisions := by
  obtain ⟨orig, hA, _⟩ := hrun.clauses (solve_searches hsolve)
  by_cases hs : a'.searches = a.searches
  · obtain ⟨_, _, h⟩ := solve_ok hA hfair hsolve
    rcases h with h | ⟨h, _⟩
    · rw [h]; exact Nat.le_max_right _ _
    · omega
  · obtain ⟨u, o, t, h1, _, h2, h3, h4⟩ := solve_last hA hfair hsolve hs
    rw [h4, (iteration_done_decisions (h1.between hA) h2 h3 h20).2]
    exact (h1.decisions hA).2.2 L hL

/-- C11 (partial): once the conflict limit or the decision limit is reached no decision is
made any more: an iteration of the loop which goes on with one more decision has found
both limits not reached. -/
theorem C11_no_decision_at_limit_partial {t t' : Search} {o : Oracle} (hr : Reachable t)
    (ho : o.Fair t.s) (hit : iteration o t = .next t') (hd : t'.s.decisions ≠ t.s.decisions) :
    limitHit t.conflictLimit (searchPropagate t.s).1.conflicts = false ∧
    limitHit t.decisionLimit t.s.decisions = false ∧ t'.s.decisions = t.s.decisions + 1 := by
  obtain ⟨_, _, _, hb⟩ := hr.between
  rcases iteration_decisions hb ho hit with ⟨h1, h2⟩ | ⟨h1, _, h2, h3⟩
  · exact absurd h1 hd
  · exact ⟨h3, h2, h1⟩

/-- C11: a limit of `n` counts from the number of conflicts or decisions at the time of the
call. -/
theorem C11_limit_set (a : Api) (n c : Nat) :
    (limitHit (a.setConflictLimit n).conflictLimit c = true ↔ a.s.conflicts + n ≤ c) ∧
    (limitHit (a.setDecisionLimit n).decisionLimit c = true ↔ a.s.decisions + n ≤ c) := by
  unfold limitHit Api.setConflictLimit Api.setDecisionLimit
  simp

/-- C11: conflicts are counted: propagation adds one to the counter if it finds a conflict and
nothing otherwise. -/
theorem C11_conflict_counted {t : Search} (hr : Reachable t) :
    (searchPropagate t.s).1.conflicts =
      t.s.conflicts + (if (searchPropagate t.s).2 = none then 0 else 1) := by
  obtain ⟨_, _, _, hb⟩ := hr.between
  have h := (propagateLoop_ok (t.s.vars + 1) hb.prop (by omega)).2.2.1
  unfold searchPropagate
  generalize propagateLoop (t.s.vars + 1) t.s = r at h
  obtain ⟨u, c⟩ := r
  simp only at h ⊢
  unfold updateConflictsAndTrail
  cases c with
  | none =>
    simp only
    split
    · exact h
    · exact h
  | some c =>
    simp only
    split <;> (rw [if_neg (by simp)]; simp [Solver.emit, h])

/-- C11: the new conflict found by strengthening a clause on the fly is counted as well. -/
theorem C11_strengthened_counted {s s' : Solver} {c c' : Conflict}
    (h : deduceStep s c = .again s' c') : s'.conflicts = s.conflicts + 1 := by
  have hstr : ∀ n r l, (strengthen s n r l).1.conflicts = s.conflicts := by
    intro n r l
    have h1 : (strengthenBinary s r l).1.conflicts = s.conflicts := by
      simp only [strengthenBinary, Solver.markGarbage, Solver.emit, Solver.setClause,
        Solver.unwatch, Solver.watchBinary, Solver.pushWatch]
    have h2 : (strengthenLarge s r l).1.conflicts = s.conflicts := by
      simp only [strengthenLarge, Solver.emit, Solver.setClause, Solver.unwatch,
        Solver.pushWatch]
    by_cases h3 : n = 3
    · rw [show strengthen s n r l = strengthenBinary s r l from if_pos h3, h1]
    · rw [show strengthen s n r l = strengthenLarge s r l from if_neg h3, h2]
  have hsub : ∀ (u : Solver) (res : Conflict) (r : Nat), (subsume u res r).conflicts = u.conflicts := by
    intro u res r
    have h1 : (u.markGarbage r).conflicts = u.conflicts := by
      simp only [Solver.markGarbage, Solver.emit, Solver.setClause]
    cases res with
    | binary a b => exact h1
    | large r' =>
      by_cases h3 : ((u.markGarbage r).clause r).redundant
      · rw [show subsume u (.large r') r = u.markGarbage r from if_pos h3, h1]
      · rw [show subsume u (.large r') r = (u.markGarbage r).setClause r' _ from if_neg h3]
        exact h1
  unfold deduceStep at h
  simp only at h
  split at h
  · cases h
  · cases h
  · split at h
    · rename_i u t n _ _ r _
      have := hstr t.antecedentSize r u
      generalize strengthen s t.antecedentSize r u = p at this h
      obtain ⟨v, res⟩ := p
      simp only at h this
      cases h
      show Solver.conflicts (if _ then _ else _) + 1 = _
      split
      · cases c with
        | large q => rw [hsub, this]
        | binary a b => rw [this]
      · rw [this]
    · cases h

/-- C11 (negation of exactness): the loop does not stop at the first iteration at which the
limit is reached if that iteration switches mode, restarts, reduces or rephases. -/
theorem C11_not_at_first_iteration :
    ∃ a : Api, (∃ calls, Run (Api.init exOptions true 100 500) calls a) ∧
      limitHit a.decisionLimit a.s.decisions = true ∧
      (∃ o t', o.Fair a.s ∧
        iteration o ⟨a.s, a.conflictLimit, a.decisionLimit, a.flagged⟩ = .next t') := by
  obtain ⟨a, ha⟩ : ∃ a, exAdd [1, 2, 0] (exInit.setDecisionLimit 0) = some a :=
    Option.isSome_iff_exists.1 (by decide)
  have h1 : Run (Api.init exOptions true 100 500) [.setDecisionLimit 0] _ :=
    Run.snoc .nil (c := .setDecisionLimit 0) trivial .setDecisionLimit
  have hrun := exAdd_run _ h1 ha
  refine ⟨a, ⟨_, hrun⟩, ?_, { exDecide [0, 1] true with switching := true }, ?_⟩
  · have := (by decide : (exAdd [1, 2, 0] (exInit.setDecisionLimit 0)).map
      (fun a => limitHit a.decisionLimit a.s.decisions) = some true)
    rw [ha] at this; simpa using this
  · have hf := (by decide : (exAdd [1, 2, 0] (exInit.setDecisionLimit 0)).map
      (fun a => exFair a.s [{ exDecide [0, 1] true with switching := true }]) = some true)
    rw [ha] at hf
    have hn := (by decide : (exAdd [1, 2, 0] (exInit.setDecisionLimit 0)).map
      (fun a => match iteration { exDecide [0, 1] true with switching := true }
          ⟨a.s, a.conflictLimit, a.decisionLimit, a.flagged⟩ with
        | .next _ => true | _ => false) = some true)
    rw [ha] at hn
    simp only [Option.map_some, Option.some.injEq] at hn hf
    split at hn
    · rename_i t' heq
      exact ⟨t', exFair_sound hf _ (by simp), heq⟩
    · cases hn

end Verif.Props
