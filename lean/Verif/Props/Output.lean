import Verif.Proofs.WriteDimacs
import Verif.Proofs.Examples
import Verif.Props.Answers

/-!
# What is printed: models (C20) and formulas (C16)
-/

namespace Verif.Props

open Verif.Spec Verif.Core Verif.Model

/-! ## C20 -/

/-- The printout of a model for up to `2^30 - 1` variables, where `value i` is what `kissat_value`
returns for variable `i`: it succeeds, consists of `v` lines of at most 78 characters and the
numbers in these lines are the literals of the model in the order of the variables followed by a
single zero. -/
theorem C20_witness {value : Nat → Int} (hv : ∀ i, value i = i ∨ value i = -i ∨ value i = 0) {n : Nat}
    (hn : n < 2 ^ 30) (partially : Bool) :
    ∃ text, Witness.printWitness value n partially = some text ∧
      ValueLines 78 text (printedModel value partially n ++ [0]) :=
  Verif.Proofs.Witness.printWitness_spec (fun i => by rcases hv i with h | h | h <;> omega) (by unfold Dimacs.maxVar; omega)

/-- The literals printed are exactly those of the variables up to `n`: one for each variable with a
value, agreeing with it, and for the others the positive one or, in a partial printout, none. -/
theorem C20_literals {value : Nat → Int} (hv : ∀ i, value i = i ∨ value i = -i ∨ value i = 0) (n : Nat)
    (partially : Bool) (x : Int) : x ∈ printedModel value partially n ↔
      1 ≤ x.natAbs ∧ x.natAbs ≤ n ∧ (value x.natAbs = x ∨ value x.natAbs = 0 ∧ partially = false ∧ 0 < x) := by
  unfold printedModel
  rw [List.mem_filterMap]
  constructor
  · rintro ⟨i, hi, hx⟩
    rw [List.mem_range] at hi
    by_cases h0 : value (i + 1) = 0
    · rw [if_pos h0] at hx
      cases partially with
      | true => cases hx
      | false =>
        have hx : ((i : Int) + 1) = x := Option.some.inj hx
        have ha : x.natAbs = i + 1 := by omega
        exact ⟨by omega, by omega, .inr ⟨by rw [ha]; exact h0, rfl, by omega⟩⟩
    · rw [if_neg h0] at hx
      have hx : value (i + 1) = x := Option.some.inj hx
      have ha : x.natAbs = i + 1 := by rcases hv (i + 1) with h | h | h <;> omega
      exact ⟨by omega, by omega, .inl (by rw [ha]; exact hx)⟩
  · rintro ⟨h1, h2, h3⟩
    refine ⟨x.natAbs - 1, List.mem_range.2 (by omega), ?_⟩
    rw [show x.natAbs - 1 + 1 = x.natAbs by omega]
    rcases h3 with h3 | ⟨h3, rfl, h4⟩
    · rw [if_neg (by omega), h3]
    · rw [if_pos h3]
      show some _ = some x
      congr 1
      omega

/-- Variables are in increasing order, so that none is printed twice. -/
theorem C20_increasing {value : Nat → Int} (hv : ∀ i, value i = i ∨ value i = -i ∨ value i = 0) (n : Nat)
    (partially : Bool) : (printedModel value partially n).Pairwise fun x y => x.natAbs < y.natAbs := by
  unfold printedModel
  rw [List.pairwise_filterMap]
  refine List.Pairwise.imp ?_ (List.pairwise_lt_range (n := n))
  intro i j hij x hx y hy
  have key : ∀ i x, (if value (i + 1) = 0 then if partially = true then none else some ((i : Int) + 1)
      else some (value (i + 1))) = some x → x.natAbs = i + 1 := by
    intro i x hx
    split at hx
    · split at hx
      · cases hx
      · have := Option.some.inj hx; omega
    · have := Option.some.inj hx
      rcases hv (i + 1) with h | h | h <;> omega
  rw [key i x hx, key j y hy]
  omega

/-- The value of variable `i` in a state of the library. -/
def valueOf (a : Api) (i : Nat) : Int :=
  match a.value i with
  | .ok v => v
  | _ => 0

/-- With the values of the library: in any state, for the variables up to `n`. -/
theorem C20_api (a : Api) {n : Nat} (hn : n < 2 ^ 30) (partially : Bool) :
    ∃ text, Witness.printWitness (valueOf a) n partially = some text ∧
      ValueLines 78 text (printedModel (valueOf a) partially n ++ [0]) := by
  refine C20_witness (fun i => ?_) hn partially
  unfold valueOf
  split
  · exact C05_value_sign ‹_›
  · exact .inr (.inr rfl)

/-- Variables, of which every third is false and every seventh has no value. -/
def exValue (i : Nat) : Int := if i % 7 = 0 then 0 else if i % 3 = 0 then - i else i

example : ∀ i, exValue i = i ∨ exValue i = -i ∨ exValue i = 0 := by
  intro i
  unfold exValue
  by_cases h : i % 7 = 0
  · rw [if_pos h]; exact .inr (.inr rfl)
  · rw [if_neg h]
    by_cases h3 : i % 3 = 0
    · rw [if_pos h3]; exact .inr (.inl rfl)
    · rw [if_neg h3]; exact .inl rfl

example : (Witness.printWitness exValue 30 false).map (fun t => String.ofList (t.map Char.ofNat)) =
    some "v 1 2 -3 4 5 -6 7 8 -9 10 11 -12 13 14 -15 16 17 -18 19 20 21 22 23 -24 25 26\nv -27 28 29 -30 0\n" := by
  decide +kernel

example : (Witness.printWitness exValue 8 true).map (fun t => String.ofList (t.map Char.ofNat)) =
    some "v 1 2 -3 4 5 -6 8 0\n" := by decide +kernel

/-! ## C16 -/

/-- The formula written is a file that is legal even in pedantic mode, whose header counts match the
body if the counter of clauses is right.  This holds before a search. -/
theorem C16_text_partial {options : Options} {tumble : Bool} {p q : Nat} {calls : List Call} {a : Api}
    (hrun : Run (Api.init options tumble p q) calls a) (h0 : a.searches = 0) (hi : a.s.inconsistent = false) {n : Nat}
    (hn : n < 2 ^ 64) (hcount : n = a.s.writtenBinaries.length + a.s.writtenLarge.length) :
    ∃ v ls, Dimacs.Legal .pedantic (a.writeDimacs n) v n ls ∧
      clausesOf ls = (a.s.writtenBinaries ++ a.s.writtenLarge).map (List.map a.exportLiteral) := by
  obtain ⟨orig, hA, -, -⟩ := (run_inv hrun).loaded h0
  obtain ⟨ls, h1, h2⟩ := writeDimacs_legal (m := .pedantic) (imports_le hrun) hn
    (fun c hc l hl => export_bound hA.imports (written_valid (hA.loaded.state hi).1.ok.inv.clause hc l hl))
    (by rw [hcount, Solver.written, List.length_append])
  exact ⟨_, ls, h1, h2⟩

/-- The same after the answer 10. -/
theorem C16_text_satisfiable_partial {options : Options} {tumble : Bool} {p q : Nat} {calls : List Call} {a a' : Api}
    {os : List Oracle} (hrun : Run (Api.init options tumble p q) calls a) (hfair : (Call.solve os).Fair a.s)
    (hsolve : a.solve os = .done a' 10) {n : Nat}
    (hn : n < 2 ^ 64) (hcount : n = a'.s.writtenBinaries.length + a'.s.writtenLarge.length) :
    ∃ v ls, Dimacs.Legal .pedantic (a'.writeDimacs n) v n ls ∧
      clausesOf ls = (a'.s.writtenBinaries ++ a'.s.writtenLarge).map (List.map a'.exportLiteral) := by
  have hrun' : Run (Api.init options tumble p q) (calls ++ [.solve os]) a' := .snoc hrun hfair (.solve hsolve)
  obtain ⟨orig, hA, -⟩ := hrun.clauses (solve_searches hsolve)
  obtain ⟨h1, -, -⟩ := solve_ok hA hfair hsolve
  cases h1 with
  | sat hP _ _ _ =>
    obtain ⟨ls, h1, h2⟩ := writeDimacs_legal (m := .pedantic) (imports_le hrun') hn
      (fun c hc l hl => export_bound (run_inv hrun').imports (written_valid hP.ok.inv.clause hc l hl))
      (by rw [hcount, Solver.written, List.length_append])
    exact ⟨_, ls, h1, h2⟩

/-- The models of the clauses added are the models of the clauses written in which the literals
assigned at the root level are true.  In particular both formulas have the same models if no
literal is assigned.  Without this they do not: see `C16_units_missing`. -/
theorem C16_models_partial {options : Options} {tumble : Bool} {p q : Nat} {calls : List Call} {a : Api}
    (hrun : Run (Api.init options tumble p q) calls a) (h0 : a.searches = 0) (hi : a.s.inconsistent = false)
    (σ : Nat → Bool) : (∀ c ∈ clausesOf (addedInts calls), ESat σ c) ↔
      (∀ c ∈ (a.s.writtenBinaries ++ a.s.writtenLarge).map (List.map a.exportLiteral), ESat σ c) ∧
      ∀ l, a.s.values l = 1 → a.s.lev l = 0 → ElitTrue σ (a.exportLiteral l) := by
  obtain ⟨orig, hA, h1, -⟩ := (run_inv hrun).loaded h0
  rw [← h1]
  exact written_models hA.imports (hA.loaded.state hi).1 hA.bound hA.loaded.active σ

/-- The same after the answer 10, when learned binary clauses are among the clauses written. -/
theorem C16_models_satisfiable_partial {options : Options} {tumble : Bool} {p q : Nat} {calls : List Call} {a a' : Api}
    {os : List Oracle} (hrun : Run (Api.init options tumble p q) calls a) (hfair : (Call.solve os).Fair a.s)
    (hsolve : a.solve os = .done a' 10) (σ : Nat → Bool) : (∀ c ∈ clausesOf (addedInts calls), ESat σ c) ↔
      (∀ c ∈ (a'.s.writtenBinaries ++ a'.s.writtenLarge).map (List.map a'.exportLiteral), ESat σ c) ∧
      ∀ l, a'.s.values l = 1 → a'.s.lev l = 0 → ElitTrue σ (a'.exportLiteral l) := by
  have hrun' : Run (Api.init options tumble p q) (calls ++ [.solve os]) a' := .snoc hrun hfair (.solve hsolve)
  obtain ⟨orig, hA, hcl⟩ := hrun.clauses (solve_searches hsolve)
  obtain ⟨h1, ⟨-, k2, k3⟩, -⟩ := solve_ok hA hfair hsolve
  cases h1 with
  | sat hP _ _ _ =>
    rw [← hcl, ← exportLiteral_congr k2]
    exact written_models (run_inv hrun').imports hP (by rw [k3]; exact hA.bound) (run_more hrun').active σ

/-- What is written after adding the integers. -/
def writes (es : List Int) (n : Nat) : Option (Bool × String) :=
  (exAdd es exInit).map fun a => (a.s.inconsistent, String.ofList ((a.writeDimacs n).map Char.ofNat))

/-- The ternary and binary clauses are written, duplicated literals are gone and the tautological clause too. -/
example : writes [1, -2, 3, 0, 2, -3, 2, 0, 1, -1, 4, 0, -4, -1, 2, 0] 3 =
    some (false, "p cnf 4 3\n2 -3 0\n1 -2 3 0\n-4 -1 2 0\n") := by decide +kernel

/-- The hypotheses of `C16_text_partial` and `C16_models_partial`. -/
example : ∃ a, Run (Api.init exOptions true 100 500) ([1, -2, 3, 0, 2, -3, 2, 0].map Call.add) a ∧ a.searches = 0 ∧
    a.s.inconsistent = false ∧ a.s.writtenBinaries.length + a.s.writtenLarge.length = 2 := by
  have h : (exAdd [1, -2, 3, 0, 2, -3, 2, 0] exInit).all (fun a => decide (a.searches = 0) && !a.s.inconsistent &&
      decide (a.s.writtenBinaries.length + a.s.writtenLarge.length = 2)) = true := by decide +kernel
  have h' : (exAdd [1, -2, 3, 0, 2, -3, 2, 0] exInit).isSome = true := by decide +kernel
  obtain ⟨a, ha⟩ := Option.isSome_iff_exists.1 h'
  rw [ha] at h
  have h : (decide (a.searches = 0) && !a.s.inconsistent &&
      decide (a.s.writtenBinaries.length + a.s.writtenLarge.length = 2)) = true := h
  rw [Bool.and_eq_true, Bool.and_eq_true] at h
  exact ⟨a, exAdd_run _ (.nil) ha, of_decide_eq_true h.1.1, by simpa using h.1.2, of_decide_eq_true h.2⟩

/-- Units are not written, and so the property fails in general.  After adding the clauses `1` and
`2 3` the first is missing in what the solver writes, which has more models. -/
theorem C16_units_missing : ∃ (calls : List Call) (a : Api) (σ : Nat → Bool),
    Run (Api.init exOptions true 100 500) calls a ∧ a.searches = 0 ∧ a.s.inconsistent = false ∧
    clausesOf (addedInts calls) = [[1], [2, 3]] ∧
    String.ofList ((a.writeDimacs 1).map Char.ofNat) = "p cnf 3 1\n2 3 0\n" ∧
    (∀ c ∈ [[2, 3]], ESat σ c) ∧ ¬ ∀ c ∈ clausesOf (addedInts calls), ESat σ c := by
  have h : (exAdd [1, 0, 2, 3, 0] exInit).all (fun a => decide (a.searches = 0) && !a.s.inconsistent &&
      decide (String.ofList ((a.writeDimacs 1).map Char.ofNat) = "p cnf 3 1\n2 3 0\n")) = true := by decide +kernel
  have h' : (exAdd [1, 0, 2, 3, 0] exInit).isSome = true := by decide +kernel
  obtain ⟨a, ha⟩ := Option.isSome_iff_exists.1 h'
  rw [ha] at h
  have h : (decide (a.searches = 0) && !a.s.inconsistent &&
      decide (String.ofList ((a.writeDimacs 1).map Char.ofNat) = "p cnf 3 1\n2 3 0\n")) = true := h
  rw [Bool.and_eq_true, Bool.and_eq_true] at h
  have hc : clausesOf (addedInts ([] ++ [1, 0, 2, 3, 0].map Call.add)) = [[1], [2, 3]] := by decide
  refine ⟨_, a, fun v => decide (v = 2), exAdd_run _ .nil ha, of_decide_eq_true h.1.1, by simpa using h.1.2,
    hc, of_decide_eq_true h.2, ?_, ?_⟩
  · intro c hc
    rw [List.mem_singleton] at hc
    subst hc
    exact ⟨2, by decide, by unfold ElitTrue; decide⟩
  · intro hall
    rw [hc] at hall
    obtain ⟨l, hl, ht⟩ := hall [1] (by decide)
    rw [List.mem_singleton] at hl
    subst hl
    exact absurd ht (by unfold ElitTrue; decide)

/-- Even satisfiability is lost: the clauses `1` and `-1` are contradictory, what is written is not. -/
theorem C16_satisfiability_lost : writes [1, 0, -1, 0] 0 = some (true, "p cnf 1 0\n") ∧
    ¬ ESatisfiable (clausesOf [1, 0, -1, 0]) ∧ ESatisfiable [] := by
  refine ⟨by decide +kernel, ?_, ⟨fun _ => true, by simp⟩⟩
  rintro ⟨σ, hσ⟩
  have hc : clausesOf [1, 0, -1, 0] = [[1], [-1]] := by decide
  rw [hc] at hσ
  obtain ⟨l, hl, ht⟩ := hσ [1] (by decide)
  obtain ⟨k, hk, ht'⟩ := hσ [-1] (by decide)
  rw [List.mem_singleton] at hl hk
  subst hl; subst hk
  revert ht ht'
  unfold ElitTrue
  simp

end Verif.Props
