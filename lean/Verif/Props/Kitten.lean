import Verif.Proofs.Kitten.Semantics
import Verif.Proofs.Kitten.FlipValues

/-!
# The embedded solver kitten (C53)

Histories of calls of `kitten.h` (`Verif.Kitten.Run`) come with the clauses and assumptions the
caller has given (`Verif.Kitten.Problem`); literals of the caller are `2 * variable + sign`. All
choices of decisions and all numbers of rounds after which the search is given up are covered.
-/

namespace Verif.Props

open Verif.Kitten
open Verif.Spec

/-- C53 (part): if kitten answers `10`, then every clause and every assumption given by the caller
has the value true in the reported assignment, which is an assignment; in particular clauses and
assumptions are consistent. Missing: clauses whose first two literals are already fixed to false
when they are added after a search (excluded by `Run`, see `C53_incremental_wrong`) and the values after
flipping literals (see `C53_flip_wrong`). -/
theorem C53_sat_partial {k k' : Kitten} {p : Problem} {f : Bool} (h : Run k p f) {choice : Nat → Choice} {rounds : Nat}
    (he : k.solve choice rounds = .done 10 k') :
    (∀ c ∈ p.clauses, ∃ e ∈ c.2, k'.value e = some 1) ∧
    (∀ a ∈ (p.ready k.status).assumptions, k'.value a = some 1) ∧
    (∀ e, ∃ v, k'.value e = some v ∧ k'.value (neg e) = some (-v)) ∧
    (p.ready k.status).Consistent := by
  obtain ⟨hs, hl⟩ := solved h he
  obtain ⟨⟨q1, q2⟩, q3⟩ := hs.sat rfl
  have hl : Link k' (p.ready k.status) := hl
  have hcl : (p.ready k.status).clauses = p.clauses := by unfold Problem.ready; split <;> rfl
  have h1 : ∀ c ∈ p.clauses, ∃ e ∈ c.2, k'.value e = some 1 := by
    intro c hc
    obtain ⟨kl, h1, _, _, h4⟩ := hl.stored c (by rw [hcl]; exact hc)
    obtain ⟨l, h5, h6⟩ := q1 kl h1
    obtain ⟨e, h7, rfl⟩ := List.mem_map.1 (h4.mem_iff.1 h5)
    exact ⟨e, h7, by rw [value_inner hs.status (hl.known c (by rw [hcl]; exact hc) e h7), h6]⟩
  have h2 : ∀ a ∈ (p.ready k.status).assumptions, k'.value a = some 1 := by
    intro a ha
    rw [value_inner hs.status (hl.assumed a ha), q2 _ (by rw [hl.assumptions]; exact List.mem_map_of_mem ha)]
  refine ⟨h1, h2, fun e => value_opposite hs.status q3 e, fun v => if k'.value (2 * v) = some 1 then true else false, ?_, ?_⟩
  · intro c hc
    rw [hcl] at hc
    obtain ⟨e, h3, h4⟩ := h1 c hc
    exact ⟨e, h3, value_true hs.status q3 h4⟩
  · intro a ha
    exact value_true hs.status q3 (h2 a ha)

/-- C53 (part, histories as in `C53_sat_partial`): if kitten answers `20`, then clauses and assumptions are inconsistent. -/
theorem C53_unsat_partial {k k' : Kitten} {p : Problem} {f : Bool} (h : Run k p f) {choice : Nat → Choice} {rounds : Nat}
    (he : k.solve choice rounds = .done 20 k') : ¬ (p.ready k.status).Consistent := by
  rintro ⟨σ, h1, h2⟩
  obtain ⟨hs, hl⟩ := solved h he
  have hl : Link k' (p.ready k.status) := hl
  exact unsat_failed hs hl h1 fun e he => h2 e (isFailed_assumed hs.good hl he)

/-- C53 (part, histories as in `C53_sat_partial`): after the answer `20` the failed literals are assumptions, and the clauses are already
inconsistent with the failed assumptions. -/
theorem C53_failed_partial {k k' : Kitten} {p : Problem} {f : Bool} (h : Run k p f) {choice : Nat → Choice} {rounds : Nat}
    (he : k.solve choice rounds = .done 20 k') :
    (∀ e, k'.isFailed e = some true → e ∈ (p.ready k.status).assumptions) ∧
    ¬ ∃ σ : Assignment, (∀ c ∈ p.clauses, SatClause σ c.2) ∧ ∀ e, k'.isFailed e = some true → litTrue σ e := by
  obtain ⟨hs, hl⟩ := solved h he
  have hl : Link k' (p.ready k.status) := hl
  have hcl : (p.ready k.status).clauses = p.clauses := by unfold Problem.ready; split <;> rfl
  refine ⟨fun e he => isFailed_assumed hs.good hl he, ?_⟩
  rintro ⟨σ, h1, h2⟩
  exact unsat_failed hs hl (by rw [hcl]; exact h1) h2

/-- C53 (part, histories as in `C53_sat_partial`): the answer is `0`, `10` or `20`; no call of the search touches memory it must not. -/
theorem C53_answers_partial {k : Kitten} {p : Problem} {f : Bool} (h : Run k p f) (choice : Nat → Choice) (rounds : Nat) :
    k.solve choice rounds = .unfinished ∨
    ∃ res k', k.solve choice rounds = .done res k' ∧ (res = 0 ∨ res = 10 ∨ res = 20) := by
  rcases solve_ok (run_rinv h).good choice rounds with h' | ⟨res, k', h', hs⟩
  · exact Or.inl h'
  · refine Or.inr ⟨res, k', h', ?_⟩
    rcases hs.results with h | h | h
    · exact Or.inr (Or.inl h)
    · exact Or.inr (Or.inr h)
    · exact Or.inl h

/-- C53 (part, histories as in `C53_sat_partial`): with antecedents tracked the clausal core is computed after the answer `20`. Its
original clauses are clauses of the caller (with the traversed identifiers), they are
inconsistent with the failed assumptions, and every learned clause of the core has a proof by unit
propagation from the clauses traversed before. -/
theorem C53_core_partial {k k1 : Kitten} {p : Problem} {f : Bool} (h : Run k p f) {choice : Nat → Choice} {rounds : Nat}
    (he : k.solve choice rounds = .done 20 k1) (ha : k1.antecedents = true) :
    ∃ k2 cs ids, k1.computeCore = some k2 ∧ k2.coreClauses = some cs ∧ k2.coreIds = some ids ∧
      (∀ c, (false, c) ∈ cs → ∃ d ∈ p.clauses, c.Perm d.2 ∧ d.1 ∈ ids) ∧
      (∀ i ∈ ids, ∃ d ∈ p.clauses, d.1 = i ∧ ∃ c, (false, c) ∈ cs ∧ c.Perm d.2) ∧
      (∀ (i : Nat) (c : List Nat), cs[i]? = some (true, c) → RUP (fun d => ∃ b, (b, d) ∈ cs.take i) c) ∧
      ¬ ∃ σ : Assignment, (∀ c, (false, c) ∈ cs → SatClause σ c) ∧ ∀ e, k1.isFailed e = some true → litTrue σ e := by
  obtain ⟨hs, hl⟩ := solved h he
  have hl : Link k1 (p.ready k.status) := hl
  have hcl : (p.ready k.status).clauses = p.clauses := by unfold Problem.ready; split <;> rfl
  obtain ⟨k2, e2⟩ := core_defined hs ha
  have hc := computeCore_ok hs.good e2
  have hg2 := core_good hs.good hc
  have hst2 := calm_store hg2
  have hl2 := link_core hl hc
  refine ⟨k2, k2.coreList, _, e2, coreClauses_eq hst2 hc.status hc.valid, if_neg (by rw [hc.status]; simp), ?_, ?_, ?_, ?_⟩
  · intro c hm
    obtain ⟨d, d1, d2, _, ids, d3, d4⟩ := core_given hs.good hl hc hm
    unfold Kitten.coreIds at d3
    rw [if_neg (by rw [hc.status]; simp)] at d3
    cases d3
    exact ⟨d, by rw [← hcl]; exact d1, d2, d4⟩
  · intro i hi
    obtain ⟨kl, h1, rfl⟩ := List.mem_map.1 hi
    obtain ⟨h2, h3⟩ := List.mem_filter.1 h1
    simp only [Bool.and_eq_true, Bool.not_eq_true'] at h3
    obtain ⟨d, d1, d2, d3⟩ := hl2.given kl h2 h3.1
    obtain ⟨r, hr⟩ := List.getElem?_of_mem h2
    have hmem : r ∈ k2.core := (hc.flag r).1 (by unfold Kitten.isCore; rw [hr]; exact h3.2)
    have := coreList_mem hmem hr
    rw [h3.1] at this
    exact ⟨d, by rw [← hcl]; exact d1, d2.symm, _, this, perm_outer hg2.names (hl2.known d d1) d3⟩
  · intro i c hic
    exact core_proof hg2.names hst2 (hc.alike.antecedents.trans ha) hc.valid hc.topo hic
  · rintro ⟨σ, h1, h2⟩
    exact core_end hs hl hc h1 h2

/-- C53 (part, histories as in `C53_sat_partial`): shrinking to the core keeps clauses of the caller, which are still inconsistent (the
caller has given no empty clause, see `C53_shrink_wrong`). -/
theorem C53_shrink_partial {k k1 k2 k3 : Kitten} {p : Problem} {f : Bool} (h : Run k p f) {choice : Nat → Choice} {rounds : Nat}
    (he : k.solve choice rounds = .done 20 k1) (hc : k1.computeCore = some k2) (hs : k2.shrink = some k3)
    (hne : ∀ c ∈ p.clauses, c.2 ≠ []) :
    ∃ q : Problem, Run k3 q false ∧ (∀ c ∈ q.clauses, c ∈ p.clauses) ∧
      ¬ ∃ σ : Assignment, ∀ c ∈ q.clauses, SatClause σ c.2 := by
  have hcl : (p.ready k.status).clauses = p.clauses := by unfold Problem.ready; split <;> rfl
  have hr1 : Run k1 (p.ready k.status) false := Run.solve h he
  refine ⟨_, Run.shrink (Run.core hr1 hc) hs (by rw [hcl]; exact hne), fun c h => by
    have := (List.mem_filter.1 h).1
    rwa [hcl] at this, ?_⟩
  rintro ⟨σ, hσ⟩
  obtain ⟨ho, hl⟩ := solved h he
  have hl : Link k1 (p.ready k.status) := hl
  have hco := computeCore_ok ho.good hc
  have hinc := shrink_inconsistent hs
  refine core_end (σ := σ) ho hl hco ?_ ?_
  · intro c hm
    obtain ⟨d, d1, d2, d3, _⟩ := core_given ho.good hl hco hm
    exact satClause_perm d2.symm (hσ d (List.mem_filter.2 ⟨d1, d3⟩))
  · intro e he
    exfalso
    rw [hco.alike.inconsistent] at hinc
    have hf := (ho.good.idle (Or.inr hinc)).1
    unfold Kitten.isFailed at he
    split at he
    · cases he
    · split at he
      · cases he
      · rw [hf] at he; cases he

/-! ## Examples -/

/-- Calls of a user of kitten. -/
inductive KittenCall
  | track
  | clause (id : Nat) (lits : List Nat)
  | assume (lit : Nat)
  | solve
  | core
  | shrink
  | flip (lit : Nat)

/-- A fixed way to decide. -/
def fixedChoice : Nat → Choice := fun _ => ⟨false, 0⟩

/-- The effect of a call. -/
def kittenCall (k : Kitten) : KittenCall → Option Kitten
  | .track => k.track
  | .clause id lits => k.clause id lits none
  | .assume lit => some (k.assume lit)
  | .solve => match k.solve fixedChoice 100 with
    | .done _ k => some k
    | _ => none
  | .core => k.computeCore
  | .shrink => k.shrink
  | .flip lit => (k.flip lit).map Prod.fst

/-- The effect of a sequence of calls on a new solver. -/
def kittenCalls (cs : List KittenCall) : Option Kitten := cs.foldlM kittenCall Kitten.init

/-- All clauses over the first two variables and another one. -/
def exKitten : List KittenCall :=
  [.track, .clause 0 [0, 2], .clause 1 [0, 3], .clause 2 [6, 8], .clause 3 [1, 2], .clause 4 [1, 3]]

/-- The solver after these calls is reached by a history. -/
theorem exKitten_run : ∃ k, kittenCalls exKitten = some k ∧
    Run k ⟨[(0, [0, 2]), (1, [0, 3]), (2, [6, 8]), (3, [1, 2]), (4, [1, 3])], []⟩ true := by
  obtain ⟨k0, h0⟩ : ∃ k, Kitten.init.track = some k := ⟨_, rfl⟩
  obtain ⟨k1, h1⟩ : ∃ k, k0.clause 0 [0, 2] none = some k := ⟨_, by cases h0; rfl⟩
  obtain ⟨k2, h2⟩ : ∃ k, k1.clause 1 [0, 3] none = some k := ⟨_, by cases h0; cases h1; rfl⟩
  obtain ⟨k3, h3⟩ : ∃ k, k2.clause 2 [6, 8] none = some k := ⟨_, by cases h0; cases h1; cases h2; rfl⟩
  obtain ⟨k4, h4⟩ : ∃ k, k3.clause 3 [1, 2] none = some k := ⟨_, by cases h0; cases h1; cases h2; cases h3; rfl⟩
  obtain ⟨k5, h5⟩ : ∃ k, k4.clause 4 [1, 3] none = some k := ⟨_, by cases h0; cases h1; cases h2; cases h3; cases h4; rfl⟩
  have r0 := Run.track Run.init h0
  have r1 := Run.clause r0 h1 (by cases h0; rfl)
  have r2 := Run.clause r1 h2 (by cases h0; cases h1; rfl)
  have r3 := Run.clause r2 h3 (by cases h0; cases h1; cases h2; rfl)
  have r4 := Run.clause r3 h4 (by cases h0; cases h1; cases h2; cases h3; rfl)
  have r5 := Run.clause r4 h5 (by cases h0; cases h1; cases h2; cases h3; cases h4; rfl)
  have s0 : k0.status = 0 := by cases h0; rfl
  have s1 : k1.status = 0 := by cases h0; cases h1; rfl
  have s2 : k2.status = 0 := by cases h0; cases h1; cases h2; rfl
  have s3 : k3.status = 0 := by cases h0; cases h1; cases h2; cases h3; rfl
  have s4 : k4.status = 0 := by cases h0; cases h1; cases h2; cases h3; cases h4; rfl
  refine ⟨k5, ?_, ?_⟩
  · simp only [kittenCalls, exKitten, List.foldlM_cons, List.foldlM_nil, kittenCall, h0, h1, h2, h3, h4, h5,
      Option.bind_eq_bind, Option.bind_some]
    rfl
  · simpa [Problem.ready, s0, s1, s2, s3, s4] using r5

/-- The answer for this example is `20`, and the core leaves out the third clause. -/
example : ((kittenCalls (exKitten ++ [.solve, .core])).bind Kitten.coreIds) = some [0, 1, 3, 4] := by decide +kernel

/-- Without the last clause the answer is `10`. -/
example : ((kittenCalls (exKitten.take 5 ++ [.solve])).map fun k => (k.status, [0, 2, 6, 8].map k.value)) =
    some (10, [some 1, some 1, some 1, some 1]) := by decide +kernel

/-- With an assumption the answer is `20` again and exactly the assumption needed has failed. -/
example : ((kittenCalls (exKitten.take 5 ++ [.assume 6, .assume 3, .solve])).map fun k =>
    (k.status, [6, 3].map k.isFailed)) = some (20, [some false, some true]) := by decide +kernel

/-- After shrinking the answer is still `20`. -/
example : ((kittenCalls (exKitten ++ [.solve, .core, .shrink, .solve])).map fun k => k.status) = some 20 := by decide +kernel

/-- C53 (part): a call which flips a literal changes the value of this variable only, and only if it
reports success; success is never reported for a literal which is fixed. Missing: the values are a
model after it (see `C53_flip_wrong`). -/
theorem C53_flip_partial {k k' : Kitten} {p : Problem} {f : Bool} (h : Run k p f) {e : Nat} {res : Bool}
    (he : k.flip e = some (k', res)) :
    (res = true → k.fixed e = 0 ∧ k.value e ≠ some 0) ∧
    ∀ e', k'.value e' = if res = true ∧ e' / 2 = e / 2 then (k.value e').map (- ·) else k.value e' := by
  obtain ⟨hR, hF⟩ := run_both h
  unfold Kitten.flip at he
  by_cases h0 : k.status ≠ 10
  · rw [if_pos h0] at he; cases he
  have h10 : k.status = 10 := by omega
  rw [if_neg h0] at he
  cases hi : k.internal e with
  | none =>
    rw [hi] at he
    cases he
    exact ⟨fun h => absurd h (by decide), fun e' => by simp⟩
  | some l =>
    rw [hi] at he
    obtain ⟨h1, h2, h3, h4⟩ := flipInternal_values (hF h10) he
    have hin : ∀ e', k'.internal e' = k.internal e' := fun e' => by unfold Kitten.internal; rw [h1]
    have hsame : ∀ e' l', k.internal e' = some l' → (l' / 2 = l / 2 ↔ e' / 2 = e / 2) := by
      intro e' l' h'
      unfold Kitten.internal at hi h'
      dsimp only at hi h'
      split at hi
      · cases hi
      · split at h'
        · cases h'
        · have e1 := Option.some.inj hi
          have e2 := Option.some.inj h'
          constructor
          · intro hd
            have e3 : k.imports (e' / 2) = k.imports (e / 2) := by omega
            have hN := hR.good.names
            have a1 := (hN (e / 2) (k.imports (e / 2) - 1)).2 (by omega)
            have a2 := (hN (e' / 2) (k.imports (e / 2) - 1)).2 (by omega)
            rw [a1] at a2
            exact (Option.some.inj a2).symm
          · intro hd
            rw [hd] at e2
            omega
    constructor
    · intro hr
      obtain ⟨g1, g2⟩ := h3 hr
      refine ⟨by unfold Kitten.fixed; rw [hi]; simp only; rw [if_neg g1], ?_⟩
      unfold Kitten.value
      rw [if_neg h0, hi]
      simpa using g2
    · intro e'
      unfold Kitten.value
      rw [h2, if_neg h0, if_neg h0, hin]
      cases hi' : k.internal e' with
      | none => simp
      | some l' =>
        simp only [h4, hsame e' l' hi', Option.map_some]
        split <;> rfl

/-- The literal which satisfies the clause alone is not flipped, the other one is, and a fixed one is not. -/
example : ((kittenCalls [.clause 0 [0, 2], .clause 1 [4], .assume 1, .solve]).map fun k =>
    ([0, 2, 4].map k.value, ([2, 0, 4].map fun e => (k.flip e).map fun r => (r.2, [0, 2, 4].map r.1.value)))) =
    some ([some (-1), some 1, some 1], [some (false, [some (-1), some 1, some 1]), some (true, [some 1, some 1, some 1]),
      some (false, [some (-1), some 1, some 1])]) := by decide +kernel

/-! ## Where kitten does not behave as described -/

/-- C53: if two variables are fixed to false by a search, and a clause with just these two variables
is added after it, then kitten answers `10` with an assignment that falsifies this clause. -/
theorem C53_incremental_wrong :
    ((kittenCalls [.clause 0 [1], .clause 1 [3], .solve, .clause 2 [0, 2], .solve]).map fun k =>
      (k.status, [0, 2].map k.value)) = some (10, [some (-1), some (-1)]) := by decide +kernel

/-- C53: after the answer `10` two successful flips of literals falsify the only clause. -/
theorem C53_flip_wrong :
    ((kittenCalls [.clause 0 [0, 2, 4], .assume 1, .solve, .assume 0, .assume 2, .assume 5, .solve]).map fun k =>
      (k.status, [0, 2, 4].map k.value)) = some (10, [some 1, some 1, some (-1)]) ∧
    ((kittenCalls [.clause 0 [0, 2, 4], .assume 1, .solve, .assume 0, .assume 2, .assume 5, .solve, .flip 2, .flip 0]).map fun k =>
      (k.status, [0, 2, 4].map k.value)) = some (10, [some (-1), some (-1), some (-1)]) := by decide +kernel

/-- C53: tracking of antecedents is accepted after an inconsistency was found without it; the core
is then the second unit clause only, which is consistent. -/
theorem C53_track_wrong :
    ((kittenCalls [.clause 0 [0], .clause 1 [1], .solve, .assume 6, .track, .solve, .core]).map fun k =>
      (k.status, k.coreClauses)) = some (21, some [(false, [1])]) := by decide +kernel

/-- C53: after shrinking to the core of an empty clause which was not the first clause, the next
core is computed from a reference to a clause that does not exist any more. -/
theorem C53_shrink_wrong :
    ((kittenCalls [.track, .clause 0 [0, 2], .clause 1 [], .solve, .core, .shrink, .solve]).map fun k =>
      (k.status, k.antecedents, k.computeCore.isSome)) = some (20, true, false) := by decide +kernel

end Verif.Props
