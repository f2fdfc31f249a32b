import Verif.Model.Simp.Substitute

/-!
# Congruence closure: merging literals and gates

First part of `congruence.c`: representatives, merging of literals, proof chains, and
simplifying and rewriting of gates.  Extraction and the main function are in
`Model/Simp/Congruence.lean`.

Simplifications:
* a gate is named by its index in the list of all gates ever made; `indexed`, `shrunken`, `marked` and
  `hash` are left out;
* the hash table of gates is not modelled: looking up a gate (`find_gate`) finds a gate which is not
  garbage, has the same tag and the same right hand side.  There is at most one, as a gate is
  only entered into the table if none was found;
* proof lines are always written (`kissat_checking_or_proving`);
* `order` is the order in which propagation visits clauses: it depends on the state in any way;
* statistics are left out, and thus the results of `merge_literals`.
-/

namespace Verif.Congruence

open Verif.Spec Verif.Model Verif.Simp

/-- `AND_GATE`, `XOR_GATE`, `ITE_GATE` (congruence.c:26-28). -/
inductive Tag
  | and
  | xor
  | ite
  deriving DecidableEq, Repr

/-- `struct gate` (congruence.c:33-48). -/
structure Gate where
  tag : Tag
  lhs : Nat
  rhs : List Nat
  garbage : Bool
  deriving DecidableEq, Repr

/-- `struct closure` (congruence.c:107-143). -/
structure Closure where
  solver : State
  repr : Nat → Nat
  gates : List Gate
  occurrences : Nat → List Nat
  scheduled : Nat → Bool
  schedule : List Nat
  /-- number of units on the trail which are propagated -/
  units : Nat
  binaries : List (Nat × Nat)

/-- The gate with the given index. -/
def Closure.gate (c : Closure) (g : Nat) : Gate := c.gates.getD g ⟨.and, 0, [], true⟩

/-- The loop of `find_repr`.  Representatives have smaller variables. -/
def follow (repr : Nat → Nat) : Nat → Nat → Nat
  | 0, l => l
  | fuel + 1, l => if repr l = l then l else follow repr fuel (repr l)

/-- `find_repr` (congruence.c:732-738). -/
def Closure.findRepr (c : Closure) (l : Nat) : Nat := follow c.repr (l + 1) l

/-- `learn_congruence_unit` (congruence.c:794-816). -/
def Closure.learnUnit (c : Closure) (order : State → List Nat) (unit : Nat) : Closure :=
  if c.solver.values unit > 0 then c
  else if c.solver.values unit < 0 then { c with solver := c.solver.learnedEmpty }
  else { c with
    solver := (c.solver.learnedUnit unit).propagateRoot (fun _ => true) (order (c.solver.learnedUnit unit)) }

/-- A new binary clause, which is saved too (congruence.c:842-849). -/
def Closure.newBinary (c : Closure) (a b : Nat) : Closure :=
  { c with
    solver := c.solver.newClause [a, b] false
    binaries := c.binaries ++ [if a < b then (a, b) else (b, a)] }

/-- `add_binary_clause` (congruence.c:818-850). -/
def Closure.addBinary (c : Closure) (order : State → List Nat) (a b : Nat) : Closure :=
  if c.solver.inconsistent then c
  else if a = neg b then c
  else if c.solver.values a > 0 then c
  else if c.solver.values b > 0 then c
  else if a = b then c.learnUnit order a
  else if c.solver.values a < 0 ∧ c.solver.values b = 0 then c.learnUnit order b
  else if c.solver.values a = 0 ∧ c.solver.values b < 0 then c.learnUnit order a
  else c.newBinary a b

/-- `schedule_literal` (congruence.c:852-861). -/
def Closure.scheduleLiteral (c : Closure) (l : Nat) : Closure :=
  if c.scheduled (l / 2) then c
  else { c with
    scheduled := fun v => if v = l / 2 then true else c.scheduled v
    schedule := c.schedule ++ [l] }

/-- `repr[larger] = smaller`, `repr[not_larger] = not_smaller` (congruence.c:937-938). -/
def Closure.setRepr (c : Closure) (larger smaller : Nat) : Closure :=
  { c with repr := fun l => if l = larger then smaller else if l = neg larger then neg smaller else c.repr l }

/-- Merging two different representatives which are not assigned (congruence.c:916-949). -/
def Closure.mergeReprs (c : Closure) (order : State → List Nat) (smaller larger : Nat) : Closure :=
  if smaller = neg larger then { c with solver := (c.solver.learnedUnit smaller).learnedEmpty }
  else
    (((c.setRepr larger smaller).addBinary order (neg larger) smaller).addBinary order larger (neg smaller)).scheduleLiteral
      larger

/-- `merge_literals` (congruence.c:877-950). -/
def Closure.merge (c : Closure) (order : State → List Nat) (lit other : Nat) : Closure :=
  if c.findRepr lit = c.findRepr other then c
  else if c.solver.values lit ≠ 0 then
    if c.solver.values lit = c.solver.values other then c
    else if c.solver.values lit = - c.solver.values other then { c with solver := c.solver.learnedEmpty }
    else c.learnUnit order (if c.solver.values lit < 0 then neg other else other)
  else if c.solver.values other ≠ 0 then
    c.learnUnit order (if c.solver.values other < 0 then neg lit else lit)
  else if c.findRepr other < c.findRepr lit then c.mergeReprs order (c.findRepr other) (c.findRepr lit)
  else c.mergeReprs order (c.findRepr lit) (c.findRepr other)

/-! ## Gates -/

/-- Insert into a sorted list. -/
def insertLit (l : Nat) : List Nat → List Nat
  | [] => [l]
  | k :: ks => if l ≤ k then l :: k :: ks else k :: insertLit l ks

/-- `sort_lits` (congruence.c:343-350): the sorting algorithm is in `Model/Containers`. -/
def sortLits : List Nat → List Nat
  | [] => []
  | l :: ls => insertLit l (sortLits ls)

/-- `find_gate` (congruence.c:484-523). -/
def Closure.findGate (c : Closure) (tag : Tag) (rhs : List Nat) (except : Option Nat) : Option Nat :=
  (List.range c.gates.length).find? fun g =>
    some g ≠ except && !(c.gate g).garbage && (c.gate g).tag = tag && (c.gate g).rhs = rhs

/-- `connect_occurrence` (congruence.c:952-957). -/
def Closure.connect (c : Closure) (l g : Nat) : Closure :=
  { c with occurrences := fun k => if k = l then c.occurrences k ++ [g] else c.occurrences k }

/-- `connect_occurrence` for all literals of a list. -/
def Closure.connects (c : Closure) (g : Nat) : List Nat → Closure
  | [] => c
  | l :: ls => (c.connect l g).connects g ls

/-- `new_gate` (congruence.c:959-983). -/
def Closure.newGate (c : Closure) (tag : Tag) (lhs : Nat) (rhs : List Nat) : Closure :=
  Closure.connects { c with gates := c.gates ++ [⟨tag, lhs, rhs, false⟩] } c.gates.length rhs

/-- A gate is changed. -/
def Closure.setGate (c : Closure) (g : Nat) (gate : Gate) : Closure :=
  { c with gates := c.gates.set g gate }

/-- `mark_gate_as_garbage` (congruence.c:1398-1404). -/
def Closure.dropGate (c : Closure) (g : Nat) : Closure :=
  c.setGate g { c.gate g with garbage := true }

/-- `if (garbage && !solver->inconsistent) mark_gate_as_garbage (closure, g)` -/
def Closure.finish (c : Closure) (g : Nat) : Closure :=
  if c.solver.inconsistent then c else c.dropGate g

/-! ## Proof chains -/

/-- The clauses of a proof chain are written (`ADD_STACK_TO_PROOF`, congruence.c:1072-1076). -/
def emitAdds (s : State) : List (List Nat) → State
  | [] => s
  | c :: cs => emitAdds (s.emitAdd c) cs

/-- `delete_proof_chain` (congruence.c:1124-1157). -/
def emitDeletes (s : State) : List (List Nat) → State
  | [] => s
  | c :: cs => emitDeletes (s.emitDelete c) cs

/-- The literals of `simplify_and_add_to_proof_chain` (congruence.c:1042-1078): duplicated literals are
dropped, and `none` if the clause is trivial.  The second argument are the marked literals. -/
def simplifyChain : List Nat → List Nat → Option (List Nat)
  | [], marks => some marks.reverse
  | l :: ls, marks =>
    if l ∈ marks then simplifyChain ls marks
    else if neg l ∈ marks then none
    else simplifyChain ls (l :: marks)

/-- A chain of unsimplified clauses. -/
def chain (cs : List (List Nat)) : List (List Nat) := cs.filterMap fun c => simplifyChain c []

/-- `inc_lits` (congruence.c:561-574): the signs are the bits of a counter. -/
def incLits : List Nat → List Nat
  | [] => []
  | l :: ls => if neg l % 2 = 1 then neg l :: ls else neg l :: incLits ls

/-- `inc_lits` several times. -/
def incTimes : Nat → List Nat → List Nat
  | 0, ls => ls
  | n + 1, ls => incTimes n (incLits ls)

/-- `parity_lits` (congruence.c:551-559). -/
def parityLits : List Nat → Nat
  | [] => 0
  | l :: ls => (l + parityLits ls) % 2

/-- One round of the loop of `add_xor_matching_proof_chain` (congruence.c:1107-1116). -/
def xorRound (lhs1 lhs2 : Nat) : Nat → List Nat → List (List Nat)
  | 0, _ => []
  | n + 1, ls => (ls ++ [neg lhs1, lhs2]) :: (ls ++ [lhs1, neg lhs2]) :: xorRound lhs1 lhs2 n (incLits ls)

/-- The loop of `add_xor_matching_proof_chain` (congruence.c:1104-1120), for the given number of literals. -/
def xorRounds (lhs1 lhs2 : Nat) : Nat → List Nat → List (List Nat)
  | 0, _ => []
  | n + 1, ls =>
    xorRound lhs1 lhs2 (2 ^ (n + 1)) ls ++ xorRounds lhs1 lhs2 n (incTimes (2 ^ (n + 1)) ls).dropLast

/-- `add_xor_matching_proof_chain` (congruence.c:1084-1122). -/
def xorMatching (rhs : List Nat) (lhs1 lhs2 : Nat) : List (List Nat) :=
  if lhs1 = lhs2 then [] else chain (xorRounds lhs1 lhs2 (rhs.length - 1) rhs.dropLast)

/-- `add_ite_matching_proof_chain` (congruence.c:1224-1266).  The third clause is not simplified. -/
def iteMatching (cond lhs1 lhs2 : Nat) : List (List Nat) :=
  if lhs1 = lhs2 then []
  else
    chain [[lhs1, neg lhs2, cond], [lhs1, neg lhs2, neg cond]] ++ [[lhs1, neg lhs2]] ++
      chain [[neg lhs1, lhs2, cond], [neg lhs1, lhs2, neg cond], [neg lhs1, lhs2]]

/-- `add_ite_turned_and_binary_clauses` (congruence.c:1268-1288). -/
def iteTurned (lhs r0 r1 : Nat) : List (List Nat) := chain [[neg lhs, r0], [neg lhs, r1]]

/-- Merging with a proof chain, which is deleted unless the solver is inconsistent
(congruence.c:1208-1212, 1377-1381, 1713-1717, 2104-2111, 2139-2142). -/
def Closure.mergeWith (c : Closure) (order : State → List Nat) (chain : List (List Nat)) (lit other : Nat) : Closure :=
  let c := Closure.merge { c with solver := emitAdds c.solver chain } order lit other
  if c.solver.inconsistent then c else { c with solver := emitDeletes c.solver chain }

/-! ## New gates -/

/-- `new_and_gate` (congruence.c:1005-1031). -/
def Closure.newAnd (c : Closure) (order : State → List Nat) (lits : List Nat) (lhs : Nat) : Closure :=
  let rhs := sortLits ((lits.filter (· ≠ lhs)).map neg)
  match c.findGate .and rhs none with
  | some g => c.merge order (c.gate g).lhs lhs
  | none => c.newGate .and lhs rhs

/-- `new_xor_gate` (congruence.c:1191-1220). -/
def Closure.newXor (c : Closure) (order : State → List Nat) (lits : List Nat) (lhs : Nat) : Closure :=
  let rhs := sortLits (lits.filter fun l => l ≠ lhs ∧ l ≠ neg lhs)
  match c.findGate .xor rhs none with
  | some g => c.mergeWith order (xorMatching (c.gate g).rhs (c.gate g).lhs lhs) (c.gate g).lhs lhs
  | none => c.newGate .xor lhs rhs

/-- `normalize_ite_lits` (congruence.c:1300-1313): whether the left hand side is negated, and the literals. -/
def normalizeIte (cond then_ else_ : Nat) : Bool × Nat × Nat × Nat :=
  let cond' := if cond % 2 = 1 then neg cond else cond
  let then' := if cond % 2 = 1 then else_ else then_
  let else' := if cond % 2 = 1 then then_ else else_
  if then' % 2 = 0 then (false, cond', then', else') else (true, cond', neg then', neg else')

/-- `new_ite_gate` (congruence.c:1347-1396). -/
def Closure.newIte (c : Closure) (order : State → List Nat) (lhs cond then_ else_ : Nat) : Closure :=
  if else_ = neg then_ then c
  else if else_ = then_ then c.merge order lhs then_
  else match normalizeIte cond then_ else_ with
    | (negate, cond, then_, else_) =>
      let lhs := if negate then neg lhs else lhs
      match c.findGate .ite [cond, then_, else_] none with
      | some g => c.mergeWith order (iteMatching ((c.gate g).rhs.getD 0 0) (c.gate g).lhs lhs) (c.gate g).lhs lhs
      | none => c.newGate .ite lhs [cond, then_, else_]

/-! ## AND gates -/

/-- The only literal of the right hand side is left (congruence.c:1491-1500, 1698-1707). -/
def Closure.unary (c : Closure) (order : State → List Nat) (lhs r : Nat) : Closure :=
  if c.solver.values lhs > 0 then c.learnUnit order r
  else if c.solver.values lhs < 0 then c.learnUnit order (neg r)
  else c.merge order lhs r

/-- `update_and_gate` (congruence.c:1483-1516) with the right hand side which is left.  `failed`: it has a false literal or
complementary ones. -/
def Closure.updateAnd (c : Closure) (order : State → List Nat) (g : Nat) (failed : Bool) (rhs : List Nat) : Closure :=
  let lhs := (c.gate g).lhs
  if failed then (c.learnUnit order (neg lhs)).finish g
  else match rhs with
    | [r] => (c.unary order lhs r).finish g
    | rhs =>
      let c := c.setGate g { c.gate g with rhs := sortLits rhs }
      match c.findGate .and (sortLits rhs) (some g) with
      | some h => (c.merge order lhs (c.gate h).lhs).finish g
      | none => c

/-- `simplify_and_gate` (congruence.c:1518-1548), with `skip_and_gate` (congruence.c:1430-1444). -/
def Closure.simplifyAnd (c : Closure) (order : State → List Nat) (g : Nat) : Closure :=
  if (c.gate g).garbage then c
  else if c.solver.values (c.gate g).lhs > 0 then c.dropGate g
  else
    c.updateAnd order g ((c.gate g).rhs.any fun l => c.solver.values l < 0)
      ((c.gate g).rhs.filter fun l => c.solver.values l = 0)

/-- The loop of `rewrite_and_gate` (congruence.c:1574-1610): `none` if there is a false literal, the negation of the left hand
side, or complementary literals. -/
def rewriteAndRhs (values : Nat → Int) (lhs dst src : Nat) : List Nat → Bool → Bool → Option (List Nat)
  | [], _, _ => some []
  | l :: ls, seen, seenNot =>
    let lit := if l = src then dst else l
    if lit = neg lhs then none
    else if values lit > 0 then rewriteAndRhs values lhs dst src ls seen seenNot
    else if values lit < 0 then none
    else if lit = dst then
      if seenNot then none
      else if seen then rewriteAndRhs values lhs dst src ls seen seenNot
      else (rewriteAndRhs values lhs dst src ls true seenNot).map (lit :: ·)
    else if lit = neg dst then
      if seen then none else (rewriteAndRhs values lhs dst src ls seen true).map (lit :: ·)
    else (rewriteAndRhs values lhs dst src ls seen seenNot).map (lit :: ·)

/-- `rewrite_and_gate` (congruence.c:1550-1618). -/
def Closure.rewriteAnd (c : Closure) (order : State → List Nat) (dst src g : Nat) : Closure :=
  if (c.gate g).garbage then c
  else if c.solver.values (c.gate g).lhs > 0 then c.dropGate g
  else if src ∉ (c.gate g).rhs then c
  else match rewriteAndRhs c.solver.values (c.gate g).lhs dst src (c.gate g).rhs false false with
    | none => c.updateAnd order g true []
    | some rhs => c.updateAnd order g false rhs

/-! ## XOR gates -/

/-- The loop `while (i && parity != parity_lits (solver, clause)) inc_lits (solver, clause)`
(congruence.c:1653-1654, 2885-2886).  At most two more increments are needed. -/
def incUntil (parity : Nat) : Nat → List Nat → List Nat
  | 0, ls => ls
  | fuel + 1, ls => if parityLits ls = parity then ls else incUntil parity fuel (incLits ls)

/-- The clauses visited by the loops of `add_xor_shrinking_proof_chain` and
`extract_xor_gates_with_base_clause` (congruence.c:1652-1672, 2884-2903): `n` clauses of the given parity.  The first one has
this parity. -/
def parityClauses (parity : Nat) : Nat → List Nat → List (List Nat)
  | 0, _ => []
  | n + 1, ls => ls :: parityClauses parity n (incUntil parity 3 (incLits ls))

/-- The proof lines of one round of `add_xor_shrinking_proof_chain` (congruence.c:1655-1671). -/
def shrinkingStep (s : State) (pivot : Nat) (c : List Nat) : State :=
  ((((s.emitAdd (c ++ [pivot])).emitAdd (c ++ [neg pivot])).emitAdd c).emitDelete (c ++ [pivot])).emitDelete
    (c ++ [neg pivot])

/-- `shrinkingStep` for all clauses. -/
def shrinkingSteps (s : State) (pivot : Nat) : List (List Nat) → State
  | [] => s
  | c :: cs => shrinkingSteps (shrinkingStep s pivot c) pivot cs

/-- `add_xor_shrinking_proof_chain` (congruence.c:1630-1676). -/
def shrinkingChain (s : State) (lhs : Nat) (rhs : List Nat) (pivot : Nat) : State :=
  shrinkingSteps s pivot
    (parityClauses (neg lhs % 2) (2 ^ (rhs.length + 1)) (rhs ++ [neg lhs]))

/-- `update_xor_gate` (congruence.c:1691-1727). -/
def Closure.updateXor (c : Closure) (order : State → List Nat) (g : Nat) : Closure :=
  let lhs := (c.gate g).lhs
  match (c.gate g).rhs with
  | [] => (c.learnUnit order (neg lhs)).finish g
  | [r] => (c.unary order lhs r).finish g
  | rhs =>
    let c := c.setGate g { c.gate g with rhs := sortLits rhs }
    match c.findGate .xor (sortLits rhs) (some g) with
    | some h => (c.mergeWith order (xorMatching (sortLits rhs) lhs (c.gate h).lhs) lhs (c.gate h).lhs).finish g
    | none => c

/-- `simplify_xor_gate` (congruence.c:1729-1756). -/
def Closure.simplifyXor (c : Closure) (order : State → List Nat) (g : Nat) : Closure :=
  if (c.gate g).garbage then c
  else
    let trues := (c.gate g).rhs.filter fun l => c.solver.values l > 0
    let gate := { c.gate g with
      lhs := if trues.length % 2 = 1 then neg (c.gate g).lhs else (c.gate g).lhs
      rhs := (c.gate g).rhs.filter fun l => c.solver.values l = 0 }
    (c.setGate g gate).updateXor order g

/-- `STRIP` (literal.h). -/
def strip (l : Nat) : Nat := 2 * (l / 2)

/-- The gate with the literals left after replacing one by `d`, which is dropped with a proof if it occurs twice
(congruence.c:1792-1806). -/
def Closure.shrinkXor (c : Closure) (g lhs : Nat) (left : List Nat) (d src : Nat) : Closure :=
  if left.count d = 2 then
    Closure.setGate { c with solver := shrinkingChain c.solver lhs (left.filter (· ≠ d)) src } g
      { c.gate g with lhs := lhs, rhs := left.filter (· ≠ d) }
  else c.setGate g { c.gate g with lhs := lhs, rhs := left }

/-- `rewrite_xor_gate` (congruence.c:1758-1818). -/
def Closure.rewriteXor (c : Closure) (order : State → List Nat) (dst src g : Nat) : Closure :=
  if (c.gate g).garbage then c
  else if dst = (c.gate g).lhs ∨ dst = neg (c.gate g).lhs then c.dropGate g
  else if src ∉ (c.gate g).rhs then c
  else
    let lits := (c.gate g).rhs.map fun l => if l = src then strip dst else l
    let negate := (dst % 2 + (lits.filter fun l => c.solver.values l > 0).length) % 2
    let left := lits.filter fun l => c.solver.values l = 0
    let lhs := if negate = 1 then neg (c.gate g).lhs else (c.gate g).lhs
    let c' := (c.shrinkXor g lhs left (strip dst) src).updateXor order g
    if !(c'.gate g).garbage && !c'.solver.inconsistent && dst % 2 = 1 && left.count (strip dst) = 1 then
      c'.connect (strip dst) g
    else c'

/-! ## ITE gates -/

/-- The new literals on the right hand side are connected (congruence.c:1916-1918, 2117-2120, 2152-2155). -/
def Closure.connectNew (c : Closure) (g : Nat) (rhs old : List Nat) : Closure :=
  c.connects g (rhs.filter fun l => !old.contains l)

/-- Two literals in order. -/
def ordered (a b : Nat) : List Nat := if a > b then [b, a] else [a, b]

/-- An ITE gate simplified to an AND gate (congruence.c:1897-1919). -/
def Closure.iteToAnd (c : Closure) (order : State → List Nat) (g lhs a b : Nat) (old : List Nat) : Closure :=
  let c := c.setGate g ⟨.and, lhs, ordered a b, false⟩
  match c.findGate .and (ordered a b) (some g) with
  | some h => (c.merge order lhs (c.gate h).lhs).finish g
  | none => c.connectNew g (ordered a b) old

/-- `simplify_ite_gate` (congruence.c:1827-1925) for a gate with the given right hand side. -/
def Closure.simplifyIteWith (c : Closure) (order : State → List Nat) (g lhs cond then_ else_ : Nat) : Closure :=
  let v := c.solver.values
  if v cond > 0 then (c.merge order lhs then_).finish g
  else if v cond < 0 then (c.merge order lhs else_).finish g
  else if v then_ > 0 ∧ v else_ > 0 then (c.learnUnit order lhs).finish g
  else if v then_ < 0 ∧ v else_ < 0 then (c.learnUnit order (neg lhs)).finish g
  else if v then_ > 0 ∧ v else_ < 0 then (c.merge order lhs cond).finish g
  else if v then_ < 0 ∧ v else_ > 0 then (c.merge order lhs (neg cond)).finish g
  else if v then_ > 0 then c.iteToAnd order g (neg lhs) (neg cond) (neg else_) [cond, then_, else_]
  else if v then_ < 0 then c.iteToAnd order g lhs (neg cond) else_ [cond, then_, else_]
  else if v else_ > 0 then c.iteToAnd order g (neg lhs) (neg then_) cond [cond, then_, else_]
  else c.iteToAnd order g lhs cond then_ [cond, then_, else_]

/-- `simplify_ite_gate` (congruence.c:1827-1925). -/
def Closure.simplifyIte (c : Closure) (order : State → List Nat) (g : Nat) : Closure :=
  if (c.gate g).garbage then c
  else match (c.gate g).rhs with
    | [cond, then_, else_] => c.simplifyIteWith order g (c.gate g).lhs cond then_ else_
    | _ => c

/-- What rewriting an ITE gate yields (congruence.c:1949-2065). -/
inductive Rewritten
  /-- an AND gate with this left hand side and these two literals -/
  | and (lhs a b : Nat)
  /-- an XOR gate with this left hand side and these two literals -/
  | xor (lhs a b : Nat)
  /-- both branches are the same literal -/
  | trivial (l : Nat)
  | ite (cond then_ else_ : Nat)
  deriving DecidableEq, Repr

/-- The cases of `rewrite_ite_gate` (congruence.c:1949-2065). -/
def rewriteIteCase (lhs cond then_ else_ dst src : Nat) : Rewritten :=
  if src = cond then
    if dst = then_ then .and (neg lhs) (neg then_) (neg else_)
    else if neg dst = then_ then .and lhs else_ then_
    else if dst = else_ then .and lhs else_ then_
    else if neg dst = else_ then .and (neg lhs) (neg then_) (neg else_)
    else .ite dst then_ else_
  else if src = then_ then
    if dst = cond then .and (neg lhs) (neg cond) (neg else_)
    else if neg dst = cond then .and lhs (neg cond) else_
    else if dst = else_ then .trivial else_
    else if neg dst = else_ then .xor lhs cond else_
    else .ite cond dst else_
  else
    if dst = cond then .and lhs cond then_
    else if neg dst = cond then .and (neg lhs) cond (neg then_)
    else if dst = then_ then .trivial then_
    else if neg dst = then_ then .xor (neg lhs) cond then_
    else .ite cond then_ dst

/-- An ITE gate rewritten to an AND gate (congruence.c:2066-2123). -/
def Closure.rewrittenAnd (c : Closure) (order : State → List Nat) (g lhs a b : Nat) (old : List Nat) : Closure :=
  let c := c.setGate g ⟨.and, lhs, ordered a b, false⟩
  match c.findGate .and (ordered a b) (some g) with
  | some h => (c.mergeWith order (iteTurned lhs ((ordered a b).getD 0 0) ((ordered a b).getD 1 0)) lhs (c.gate h).lhs).finish g
  | none =>
    ((c.connectNew g (ordered a b) old).addBinary order (neg lhs) ((ordered a b).getD 0 0)).addBinary order (neg lhs)
      ((ordered a b).getD 1 0)

/-- An ITE gate rewritten to an XOR gate (congruence.c:2066-2123). -/
def Closure.rewrittenXor (c : Closure) (order : State → List Nat) (g lhs a b : Nat) (old : List Nat) : Closure :=
  let rhs := (ordered a b).map strip
  let lhs := if (a + b) % 2 = 1 then neg lhs else lhs
  let sorted := sortLits rhs
  let c := c.setGate g ⟨.xor, lhs, sorted, false⟩
  match c.findGate .xor sorted (some g) with
  | some h => (c.mergeWith order (xorMatching sorted lhs (c.gate h).lhs) lhs (c.gate h).lhs).finish g
  | none => c.connectNew g sorted old

/-- An ITE gate rewritten to an ITE gate (congruence.c:2124-2158). -/
def Closure.rewrittenIte (c : Closure) (order : State → List Nat) (g lhs cond then_ else_ : Nat) (old : List Nat) : Closure :=
  match normalizeIte cond then_ else_ with
  | (negate, cond, then_, else_) =>
    let lhs := if negate then neg lhs else lhs
    let c := c.setGate g { c.gate g with rhs := [cond, then_, else_] }
    match c.findGate .ite [cond, then_, else_] (some g) with
    | some h =>
      (c.mergeWith order (iteMatching ((c.gate h).rhs.getD 0 0) (c.gate h).lhs lhs) (c.gate h).lhs lhs).finish g
    | none => (c.setGate g ⟨.ite, lhs, [cond, then_, else_], false⟩).connectNew g [cond, then_, else_] old

/-- `rewrite_ite_gate` (congruence.c:1927-2158). -/
def Closure.rewriteIte (c : Closure) (order : State → List Nat) (dst src g : Nat) : Closure :=
  if (c.gate g).garbage then c
  else if src ∉ (c.gate g).rhs then c
  else match (c.gate g).rhs with
    | [cond, then_, else_] =>
      let old := [dst, cond, then_, else_]
      match rewriteIteCase (c.gate g).lhs cond then_ else_ dst src with
      | .and lhs a b => c.rewrittenAnd order g lhs a b old
      | .xor lhs a b => c.rewrittenXor order g lhs a b old
      | .trivial l => (c.merge order (c.gate g).lhs l).finish g
      | .ite cond then_ else_ => c.rewrittenIte order g (c.gate g).lhs cond then_ else_ old
    | _ => c

/-! ## Propagation of units and equivalences -/

/-- `simplify_gate` (congruence.c:2160-2168). -/
def Closure.simplifyGate (c : Closure) (order : State → List Nat) (g : Nat) : Closure :=
  match (c.gate g).tag with
  | .and => c.simplifyAnd order g
  | .xor => c.simplifyXor order g
  | .ite => c.simplifyIte order g

/-- `rewrite_gate` (congruence.c:2170-2179). -/
def Closure.rewriteGate (c : Closure) (order : State → List Nat) (dst src g : Nat) : Closure :=
  match (c.gate g).tag with
  | .and => c.rewriteAnd order dst src g
  | .xor => c.rewriteXor order dst src g
  | .ite => c.rewriteIte order dst src g

/-- The loop of `simplify_gates` (congruence.c:4148-4158). -/
def Closure.simplifyGates (c : Closure) (order : State → List Nat) : List Nat → Closure
  | [] => c
  | g :: gs =>
    let c := c.simplifyGate order g
    if c.solver.inconsistent then c else c.simplifyGates order gs

/-- The occurrences of a literal are released. -/
def Closure.release (c : Closure) (l : Nat) : Closure :=
  { c with occurrences := fun k => if k = l then [] else c.occurrences k }

/-- `simplify_gates` (congruence.c:4148-4158). -/
def Closure.simplifyLit (c : Closure) (order : State → List Nat) (l : Nat) : Closure :=
  let c := c.simplifyGates order (c.occurrences l)
  if c.solver.inconsistent then c else c.release l

/-- The loop of `rewrite_gates` (congruence.c:4160-4173). -/
def Closure.rewriteGates (c : Closure) (order : State → List Nat) (dst src : Nat) : List Nat → Closure
  | [] => c
  | g :: gs =>
    let c := c.rewriteGate order dst src g
    if c.solver.inconsistent then c
    else
      let c := if !(c.gate g).garbage && (c.gate g).rhs.contains dst then c.connect dst g else c
      c.rewriteGates order dst src gs

/-- `rewrite_gates` (congruence.c:4160-4173). -/
def Closure.rewriteLit (c : Closure) (order : State → List Nat) (dst src : Nat) : Closure :=
  let c := c.rewriteGates order dst src (c.occurrences src)
  if c.solver.inconsistent then c else c.release src

/-- `propagate_unit` (congruence.c:4175-4182). -/
def Closure.propagateUnit (c : Closure) (order : State → List Nat) (l : Nat) : Closure :=
  let c := c.simplifyLit order l
  if c.solver.inconsistent then c else c.simplifyLit order (neg l)

/-- `propagate_units` (congruence.c:4199-4207).  There are at most as many units as variables. -/
def Closure.propagateUnits (c : Closure) (order : State → List Nat) : Nat → Closure
  | 0 => c
  | fuel + 1 =>
    match c.solver.trail[c.units]? with
    | none => c
    | some l =>
      let c := Closure.propagateUnit { c with units := c.units + 1 } order l
      if c.solver.inconsistent then c else c.propagateUnits order fuel

/-- `propagate_equivalence` (congruence.c:4184-4197). -/
def Closure.propagateEquivalence (c : Closure) (order : State → List Nat) (l : Nat) : Closure :=
  if c.solver.values l ≠ 0 then c
  else
    let r := c.findRepr l
    let c := c.rewriteLit order r l
    if c.solver.inconsistent then c else c.rewriteLit order (neg r) (neg l)

/-- The loop of `propagate_units_and_equivalences` (congruence.c:4209-4230).  Termination by limits: after any number of
iterations. -/
def Closure.propagateAll (c : Closure) (order : State → List Nat) : Nat → Closure
  | 0 => c
  | fuel + 1 =>
    let c := c.propagateUnits order (c.solver.exports.length + 1)
    if c.solver.inconsistent then c
    else match c.schedule with
      | [] => c
      | l :: ls =>
        let c := Closure.propagateEquivalence
          { c with schedule := ls, scheduled := fun v => if v = l / 2 then false else c.scheduled v } order l
        if c.solver.inconsistent then c else c.propagateAll order fuel

end Verif.Congruence
