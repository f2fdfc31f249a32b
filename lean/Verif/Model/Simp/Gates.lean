import Verif.Spec.Refutation
import Verif.Model.Simp.Resolve

/-!
# Gate extraction (gates.c, equivalences.c, ands.c, ifthenelse.c, definition.c)

`pos` and `neg` are the watches of `lit` and of its negation.  They are taken before the
extraction starts and keep references to clauses which become garbage.
-/

namespace Verif.Simp

open Verif.Spec Verif.Model

/-- `solver->gates` and `solver->resolve_gate`.  Watches of `lit`, watches of its negation. -/
structure Gates where
  pos : List Nat
  neg : List Nat
  resolve : Bool
  deriving DecidableEq, Repr

/-- Gates found for the negated literal. -/
def Gates.swap (g : Gates) : Gates := ⟨g.neg, g.pos, g.resolve⟩

/-- `kissat_find_equivalence_gate` (equivalences.c:5-37).  The code pushes a binary watch with the
literal; here it is the first clause with that literal, and if there is none, a clause which does not exist. -/
def State.findEquivalence (s : State) (lit : Nat) (pos negs : List Nat) : Option Gates :=
  let marked := pos.filterMap (s.binaryOther lit)
  match negs.find? fun r =>
      match s.binaryOther (neg lit) r with
      | some other => marked.contains (neg other)
      | none => false with
  | none => none
  | some r =>
    let q := pos.find? fun q => s.binaryOther lit q = (s.binaryOther (neg lit) r).map neg
    some ⟨[q.getD s.arena.length], [r], false⟩

/-- The check of the literals of a potential base clause (ands.c:34-51). -/
inductive Base
  | satisfied
  | no
  | yes
  deriving DecidableEq, Repr

/-- The loop over the literals of a potential base clause (ands.c:34-51). -/
def State.checkBase (s : State) (marked : List Nat) (notLit : Nat) : List Nat → Base
  | [] => .yes
  | other :: rest =>
    if other = notLit then s.checkBase marked notLit rest
    else if s.values other > 0 then .satisfied
    else if s.values other < 0 then s.checkBase marked notLit rest
    else if marked.contains (neg other) then s.checkBase marked notLit rest
    else .no

/-- The loop searching for a base clause (ands.c:25-54).  Argument: the watches of the negated
literal.  The code asserts that none of the clauses is garbage. -/
def State.findBase (s : State) (marked : List Nat) (notLit : Nat) : List Nat → State × Option Nat
  | [] => (s, none)
  | r :: rs =>
    if (s.clause r).garbage || (s.clause r).lits.length = 2 then s.findBase marked notLit rs
    else match s.checkBase marked notLit (s.clause r).lits with
      | .satisfied => (s.markGarbage r).findBase marked notLit rs
      | .no => s.findBase marked notLit rs
      | .yes => (s, some r)

/-- The loop collecting binary clauses (ands.c:71-82), where `marks` are the literals still
marked.  Note that only the first copy of a clause not in the gate is skipped. -/
def State.andBinaries (s : State) (lit : Nat) : List Nat → List Nat → List Nat
  | [], _ => []
  | r :: rs, marks =>
    match s.binaryOther lit r with
    | none => s.andBinaries lit rs marks
    | some other =>
      if marks.contains other then s.andBinaries lit rs (marks.filter (· ≠ other))
      else r :: s.andBinaries lit rs marks

/-- `kissat_find_and_gate` (ands.c:6-88). -/
def State.findAnd (s : State) (lit : Nat) (pos negs : List Nat) : State × Option Gates :=
  let marked := (pos.filterMap (s.binaryOther lit)).eraseDups
  if marked.length < 2 then (s, none)
  else match s.findBase marked (neg lit) negs with
    | (s, none) => (s, none)
    | (s, some base) =>
      let inBase := (s.clause base).lits.filter fun other => other ≠ neg lit ∧ s.values other = 0
      let marks := marked.filter fun m => ¬ neg m ∈ inBase
      (s, some ⟨s.andBinaries lit pos marks, [base], false⟩)

/-- The result of `get_ternary_clause`. -/
inductive Ternary
  | satisfied
  | no
  | three (a b c : Nat)
  deriving DecidableEq, Repr

/-- The loop of `get_ternary_clause` (ifthenelse.c:14-32). -/
def State.ternary (s : State) : List Nat → List Nat → Ternary
  | [], [a, b, c] => .three a b c
  | [], _ => .no
  | other :: rest, acc =>
    if s.values other > 0 then .satisfied
    else if s.values other < 0 then s.ternary rest acc
    else if acc.length = 3 then .no
    else s.ternary rest (acc ++ [other])

/-- `get_ternary_clause` (ifthenelse.c:6-40) and moving `lit` to the front (117-124). -/
def State.getTernary (s : State) (lit r : Nat) : State × Option (Nat × Nat) :=
  if (s.clause r).garbage then (s, none)
  else match s.ternary (s.clause r).lits [] with
    | .satisfied => (s.markGarbage r, none)
    | .no => (s, none)
    | .three a b c =>
      let (a, b) := if b = lit then (b, a) else (a, b)
      let (_, c) := if c = lit then (c, a) else (a, c)
      (s, some (b, c))

/-- The result of matching a clause. -/
inductive Match
  | satisfied
  | no
  | found (n : Nat)
  deriving DecidableEq, Repr

/-- The loop of `match_ternary_ref` (ifthenelse.c:49-60). -/
def State.matchTernary (s : State) (a b c : Nat) : List Nat → Nat → Match
  | [], n => .found n
  | other :: rest, n =>
    if s.values other > 0 then .satisfied
    else if s.values other < 0 then s.matchTernary a b c rest n
    else if a ≠ other ∧ b ≠ other ∧ c ≠ other then .no
    else s.matchTernary a b c rest (n + 1)

/-- `find_ternary_clause` (ifthenelse.c:81-93) with `match_ternary_watch` (67-79).  Returns the
clause and the new value of `resolve_gate`. -/
def State.findTernary (s : State) (a b c : Nat) (resolve : Bool) :
    List Nat → Nat → State × Nat × Option (Nat × Bool)
  | [], steps => (s, steps, none)
  | r :: rs, steps =>
    if (s.clause r).garbage then s.findTernary a b c resolve rs (steps + 1)
    else match s.binaryOther a r with
    | some other =>
      if other ≠ b ∧ other ≠ c then s.findTernary a b c resolve rs (steps + 1)
      else (s, steps + 1, some (r, true))
    | none =>
      match s.matchTernary a b c (s.clause r).lits 0 with
      | .satisfied => (s.markGarbage r).findTernary a b c resolve rs (steps + 1)
      | .no => s.findTernary a b c resolve rs (steps + 1)
      | .found n => (s, steps + 1, some (r, resolve || n ≠ 3))

/-- The inner loop of `kissat_find_if_then_else_gate` (ifthenelse.c:125-171) for the first clause
`r1` with literals `lit`, `b1`, `c1`. -/
def State.iteInner (s : State) (limit lit : Nat) (negs : List Nat) (r1 b1 c1 : Nat) :
    List Nat → Nat → State × Nat × Option Gates
  | [], steps => (s, steps, none)
  | r2 :: rs, steps =>
    if ¬ steps < limit then (s, steps, none)
    else if (s.clause r2).lits.length = 2 then s.iteInner limit lit negs r1 b1 c1 rs steps
    else match s.getTernary lit r2 with
    | (s, none) => s.iteInner limit lit negs r1 b1 c1 rs steps
    | (s, some (b2, c2)) =>
      let (b2, c2) := if b1 / 2 = c2 / 2 then (c2, b2) else (b2, c2)
      if c1 / 2 = c2 / 2 then s.iteInner limit lit negs r1 b1 c1 rs steps
      else if b1 ≠ neg b2 then s.iteInner limit lit negs r1 b1 c1 rs steps
      else match s.findTernary (neg lit) b1 (neg c1) false negs steps with
      | (s, steps, none) => s.iteInner limit lit negs r1 b1 c1 rs steps
      | (s, steps, some (r3, resolve)) =>
        match s.findTernary (neg lit) b2 (neg c2) resolve negs steps with
        | (s, steps, none) => s.iteInner limit lit negs r1 b1 c1 rs steps
        | (s, steps, some (r4, resolve)) => (s, steps, some ⟨[r1, r2], [r3, r4], resolve⟩)

/-- The outer loop of `kissat_find_if_then_else_gate` (ifthenelse.c:113-172). -/
def State.iteOuter (s : State) (limit lit : Nat) (negs : List Nat) :
    List Nat → Nat → State × Option Gates
  | [], _ => (s, none)
  | r1 :: rs, steps =>
    if ¬ steps < limit ∨ rs = [] then (s, none)
    else if (s.clause r1).lits.length = 2 then s.iteOuter limit lit negs rs steps
    else match s.getTernary lit r1 with
    | (s, none) => s.iteOuter limit lit negs rs steps
    | (s, some (b1, c1)) =>
      match s.iteInner limit lit negs r1 b1 c1 rs steps with
      | (s, _, some g) => (s, some g)
      | (s, steps, none) => s.iteOuter limit lit negs rs steps

/-- `kissat_find_if_then_else_gate` (ifthenelse.c:95-174). -/
def State.findIte (s : State) (limit lit : Nat) (pos negs : List Nat) : State × Option Gates :=
  let large := (pos.filter fun r => (s.clause r).lits.length ≠ 2).length
  if large * large > limit then (s, none)
  else s.iteOuter limit lit negs pos 0

/-- What the sub-solver returns for a list of clauses it shows to be unsatisfiable: the
positions of the clauses in the core and the learned clauses before the empty one.  The
sub-solver is an argument of the model. -/
abbrev Kitten := List (List Nat) → Option (List Nat × List (List Nat))

/-- The sub-solver only claims what it has a refutation for, given non-empty clauses. -/
def Kitten.Sound (k : Kitten) : Prop := ∀ cs core lemmas, (∀ c ∈ cs, c ≠ []) → k cs = some (core, lemmas) →
  Refutation (fun c => ∃ i ∈ core, cs[i]? = some c) lemmas ∧
  ∀ c ∈ lemmas, ∀ l ∈ c, ∃ d ∈ cs, ∃ m ∈ d, m / 2 = l / 2

/-- Adding the learned clauses of a one sided core extended by the unit to the proof
(definition.c:53-87), learning the unit and deleting them. -/
def State.learnCore (s : State) (unit : Nat) (lemmas : List (List Nat)) : State :=
  let s := lemmas.foldl (fun s c => s.emitAdd (unit :: c)) s
  let s := s.learnedUnit unit
  lemmas.foldl (fun s c => s.emitDelete (unit :: c)) s

/-- `kissat_find_definition` (definition.c:91-230). -/
def State.findDefinition (s : State) (kitten : Kitten) (lit : Nat) (pos negs : List Nat) :
    State × Option Gates :=
  let exported := pos.map (fun r => (s.clause r).lits.filter (· ≠ lit)) ++
    negs.map (fun r => (s.clause r).lits.filter (· ≠ neg lit))
  match kitten exported with
  | none => (s, none)
  | some (core, lemmas) =>
    let g0 := (List.range pos.length).filter (fun i => core.contains i) |>.map fun i => pos.getD i 0
    let g1 := (List.range negs.length).filter (fun i => core.contains (pos.length + i)) |>.map
      fun i => negs.getD i 0
    let s := if g0 = [] then s.learnCore (neg lit) lemmas
      else if g1 = [] then s.learnCore lit lemmas else s
    (s, some ⟨g0, g1, true⟩)

/-- The options which enable gate extraction. -/
structure GateOptions where
  extract : Bool
  equivalences : Bool
  ands : Bool
  ifthenelse : Bool
  definitions : Bool
  occlim : Nat
  kitten : Kitten

/-- `kissat_find_gates` (gates.c:34-59). -/
def State.findGates (s : State) (o : GateOptions) (lit : Nat) (pos negs : List Nat) :
    State × Option Gates :=
  if !o.extract || negs.isEmpty then (s, none)
  else match (if o.equivalences then s.findEquivalence lit pos negs else none) with
  | some g => (s, some g)
  | none =>
    match (if o.ands then s.findAnd lit pos negs else (s, none)) with
    | (s, some g) => (s, some g)
    | (s, none) =>
      match (if o.ands then s.findAnd (neg lit) negs pos else (s, none)) with
      | (s, some g) => (s, some g.swap)
      | (s, none) =>
        match (if o.ifthenelse then s.findIte o.occlim lit pos negs else (s, none)) with
        | (s, some g) => (s, some g)
        | (s, none) =>
          match (if o.ifthenelse then s.findIte o.occlim (neg lit) negs pos else (s, none)) with
          | (s, some g) => (s, some g.swap)
          | (s, none) =>
            if o.definitions then s.findDefinition o.kitten lit pos negs else (s, none)

end Verif.Simp
