import Verif.Model.Simp.Closure

/-!
# Congruence closure: finding gates, and the main function

Second part of `congruence.c`.

Simplifications:
* which clauses are tried, in which order, and where a search is given up, depends on counters, limits and termination.
  These choices are arguments (`Options`), and any choice is allowed;
* deleting binary clauses marks an entry of the arena as garbage;
* saved binary clauses are not sorted: only their order would change;
* after `kissat_resume_sparse_mode` the stack `binaries` is not used any more, but the model still adds to it;
* no unit is learned while gates are extracted, as all literals involved are unassigned: that units are propagated with
  `propagateRoot`, though the solver does not watch clauses then, makes no difference.
-/

namespace Verif.Congruence

open Verif.Spec Verif.Model Verif.Simp

/-- `init_closure` (congruence.c:145-176). -/
def start (s : State) : Closure where
  solver := s
  repr := fun l => l
  gates := []
  occurrences := fun _ => []
  scheduled := fun _ => false
  schedule := []
  units := 0
  binaries := []

/-- A pair of literals, the smaller one first. -/
def pair (a b : Nat) : Nat × Nat := if a < b then (a, b) else (b, a)

/-- `kissat_enter_dense_mode` (dense.c:13-110): duplicated and satisfied binary clauses are deleted, the others saved.  They are
visited in the order of the arena and not literal by literal.  If a literal is false the other one is true (dense.c:68). -/
def saveBinaries (s : State) (saved : List (Nat × Nat)) : List Nat → State × List (Nat × Nat)
  | [] => (s, saved)
  | r :: rs =>
    match (s.clause r).garbage || (s.clause r).redundant, (s.clause r).lits with
    | false, [a, b] =>
      if s.values a = 0 ∧ s.values b = 0 then
        if pair a b ∈ saved then saveBinaries (s.markGarbage r) saved rs
        else saveBinaries s (saved ++ [pair a b]) rs
      else if s.values a > 0 ∨ s.values b > 0 then saveBinaries (s.markGarbage r) saved rs
      else saveBinaries s saved rs
    | _, _ => saveBinaries s saved rs

/-- `init_extraction` (congruence.c:3983-3986). -/
def Closure.enterDense (c : Closure) : Closure :=
  match saveBinaries c.solver [] (List.range c.solver.arena.length) with
  | (s, saved) => { c with solver := s, binaries := saved }

/-! ## Binary clauses from ternary ones -/

/-- The binary clause which strengthens a ternary one (congruence.c:2277-2302).  `find_binary`
(congruence.c:2190-2217) searches the saved binary clauses, which are sorted. -/
def strengthen (values : Nat → Int) (bins : List (Nat × Nat)) : List Nat → Option (Nat × Nat)
  | [a, b, c] =>
    if values a ≠ 0 ∨ values b ≠ 0 ∨ values c ≠ 0 then none
    else if pair (neg a) b ∈ bins ∨ pair (neg a) c ∈ bins then some (b, c)
    else if pair (neg b) a ∈ bins ∨ pair (neg b) c ∈ bins then some (a, c)
    else if pair (neg c) a ∈ bins ∨ pair (neg c) b ∈ bins then some (a, b)
    else none
  | _ => none

/-- The loop over the clauses of `extract_binaries` (congruence.c:2264-2310), and the added binary clauses with their
references. -/
def Closure.extractTernaries (order : State → List Nat) (bins : List (Nat × Nat)) :
    Closure → List Nat → Closure × List ((Nat × Nat) × Nat)
  | c, [] => (c, [])
  | c, r :: rs =>
    if (c.solver.clause r).garbage || (c.solver.clause r).redundant then c.extractTernaries order bins rs
    else match strengthen c.solver.values bins (c.solver.clause r).lits with
      | none => c.extractTernaries order bins rs
      | some (l, k) =>
        if pair l k ∈ bins then c.extractTernaries order bins rs
        else match (c.addBinary order l k).extractTernaries order bins rs with
          | (c', added) => (c', (pair l k, c.solver.arena.length) :: added)

/-- Duplicated binary clauses among the added ones are deleted (congruence.c:2312-2338). -/
def dedup (s : State) (saved : List (Nat × Nat)) : List ((Nat × Nat) × Nat) → State × List (Nat × Nat)
  | [] => (s, saved)
  | (p, r) :: rest =>
    if p ∈ saved then dedup (s.markGarbage r) saved rest else dedup s (saved ++ [p]) rest

/-- `extract_binaries` (congruence.c:2226-2342). -/
def Closure.extractBinaries (c : Closure) (order : State → List Nat) (rs : List Nat) : Closure :=
  match c.extractTernaries order c.binaries rs with
  | (c', added) =>
    match dedup c'.solver c.binaries added with
    | (s, saved) => { c' with solver := s, binaries := saved }

/-- Some clauses with a true literal are deleted (congruence.c:2793-2798, 3131-3136, 3274-3279). -/
def markSatisfied (s : State) : List Nat → State
  | [] => s
  | r :: rs =>
    if !(s.clause r).garbage && (s.clause r).lits.any fun l => s.values l > 0 then markSatisfied (s.markGarbage r) rs
    else markSatisfied s rs

/-! ## AND gates -/

/-- The number of binary clauses of the negation of `lhs` with the negation of a literal of the base clause
(`matched` in congruence.c:2345-2454).  Only `bins` are connected (congruence.c:3019-3044). -/
def matched (bins : List (Nat × Nat)) (lits : List Nat) (lhs : Nat) : Nat :=
  bins.countP fun p => (p.1 = neg lhs && lits.contains (neg p.2)) || (p.2 = neg lhs && lits.contains (neg p.1))

/-- The loop over candidates for the left hand side (congruence.c:2620-2660).  Candidates which did not match other ones are
not tried: they are left out from the list. -/
def Closure.andCandidates (c : Closure) (order : State → List Nat) (bins : List (Nat × Nat)) (lits : List Nat) (r : Nat) :
    List Nat → Closure
  | [] => c
  | lhs :: rest =>
    if c.solver.inconsistent || (c.solver.clause r).garbage then c
    else if lits.contains lhs && lits.length - 1 ≤ matched bins lits lhs then
      (c.newAnd order lits lhs).andCandidates order bins lits r rest
    else c.andCandidates order bins lits r rest

/-- `extract_and_gates_with_base_clause` (congruence.c:2526-2671). -/
def Closure.andBase (c : Closure) (order : State → List Nat) (bins : List (Nat × Nat)) (r : Nat) (candidates : List Nat) :
    Closure :=
  if (c.solver.clause r).garbage || (c.solver.clause r).redundant then c
  else if (c.solver.clause r).lits.any fun l => c.solver.values l > 0 then { c with solver := c.solver.markGarbage r }
  else
    let lits := (c.solver.clause r).lits.filter fun l => c.solver.values l = 0
    if lits.length < 3 then c else c.andCandidates order bins lits r candidates

/-- `extract_and_gates` (congruence.c:3861-3896). -/
def Closure.extractAnds (c : Closure) (order : State → List Nat) (bins : List (Nat × Nat)) : List (Nat × List Nat) → Closure
  | [] => c
  | (r, candidates) :: rest =>
    if c.solver.inconsistent then c else (c.andBase order bins r candidates).extractAnds order bins rest

/-! ## XOR gates -/

/-- Whether only the largest literal is negated (congruence.c:2851-2874). -/
def xorSigns (lits : List Nat) : Bool := lits.all fun l => l % 2 = 0 || lits.all (· ≤ l)

/-- Whether the clause `r` consists of the given literals and false ones (congruence.c:2777-2810). -/
def sideClause (s : State) (lits : List Nat) (r : Nat) : Bool :=
  !(s.clause r).garbage && !(s.clause r).redundant &&
  ((s.clause r).lits.all fun l => s.values l < 0 || (s.values l = 0 && lits.contains l)) &&
  ((s.clause r).lits.filter fun l => s.values l = 0).length = lits.length

/-- The loop over left hand sides (congruence.c:2918-2927). -/
def Closure.xorCandidates (c : Closure) (order : State → List Nat) (lits : List Nat) (negated : Bool) : List Nat → Closure
  | [] => c
  | l :: rest =>
    let c := c.newXor order lits (if negated then l else neg l)
    if c.solver.inconsistent then c else c.xorCandidates order lits negated rest

/-- `extract_xor_gates_with_base_clause` (congruence.c:2823-2930), where `conn` are the connected clauses: the side clauses
are found among them (`find_large_xor_side_clause`, congruence.c:2745-2819). -/
def Closure.xorBase (c : Closure) (order : State → List Nat) (conn : List Nat) (r : Nat) : Closure :=
  if (c.solver.clause r).garbage || (c.solver.clause r).redundant then c
  else if (c.solver.clause r).lits.any fun l => c.solver.values l > 0 then { c with solver := c.solver.markGarbage r }
  else
    let lits := (c.solver.clause r).lits.filter fun l => c.solver.values l = 0
    if !xorSigns lits || lits.length < 3 then c
    else if (parityClauses (parityLits lits) (2 ^ (lits.length - 1)) lits).tail.all fun side => conn.any (sideClause c.solver side) then
      let negated := lits.any fun l => l % 2 = 1
      let lits := lits.map strip
      c.xorCandidates order lits negated lits
    else c

/-- `extract_xor_gates` (congruence.c:3898-3935).  Searching for side clauses deletes satisfied ones. -/
def Closure.extractXors (c : Closure) (order : State → List Nat) (conn : List Nat) : List (Nat × List Nat) → Closure
  | [] => c
  | (r, satisfied) :: rest =>
    if c.solver.inconsistent then c
    else (Closure.xorBase { c with solver := markSatisfied c.solver satisfied } order conn r).extractXors order conn rest

/-! ## If-then-else gates -/

/-- The unassigned literals of a clause which is connected (congruence.c:3264-3343): three, and no true literal. -/
def ternary (s : State) (r : Nat) : Option (List Nat) :=
  if !(s.clause r).garbage && !(s.clause r).redundant && (s.clause r).lits.all (fun l => s.values l ≤ 0) &&
      ((s.clause r).lits.filter fun l => s.values l = 0).length = 3 then
    some ((s.clause r).lits.filter fun l => s.values l = 0)
  else none

/-- The conditional binary clause of a ternary one (congruence.c:3386-3415).  If there are no two unassigned literals left the code
makes a pair with `INVALID_LIT`, which matches no other. -/
def condPair (values : Nat → Int) (lit : Nat) (t : List Nat) : Option (Nat × Nat) :=
  if t.contains lit then
    match t.filter fun l => values l = 0 ∧ l ≠ lit with
    | [x, y] => some (pair x y)
    | _ => none
  else none

/-- `copy_conditional_equivalences` (congruence.c:3375-3416). -/
def condBin (values : Nat → Int) (ternaries : List (List Nat)) (lit : Nat) : List (Nat × Nat) :=
  ternaries.filterMap (condPair values lit)

/-- `extract_condeq_pairs`, `search_condeq` (congruence.c:3459-3613): equivalences and their inverse. -/
def condEq (bins : List (Nat × Nat)) : List (Nat × Nat) :=
  bins.flatMap fun p =>
    if p.1 % 2 = 0 ∧ (neg p.1, neg p.2) ∈ bins then
      [(p.1, neg p.2), if neg p.2 % 2 = 1 then (p.2, neg p.1) else (neg p.2, p.1)]
    else []

/-- `less_litpair` (congruence.c:3418-3426). -/
def lessPair (p q : Nat × Nat) : Bool := p.1 < q.1 || (p.1 = q.1 && p.2 < q.2)

/-- Insert into a sorted list. -/
def insertPair (p : Nat × Nat) : List (Nat × Nat) → List (Nat × Nat)
  | [] => [p]
  | q :: qs => if lessPair q p then q :: insertPair p qs else p :: q :: qs

/-- `sort_pairs` (congruence.c:3430-3437). -/
def sortPairs : List (Nat × Nat) → List (Nat × Nat)
  | [] => []
  | p :: ps => insertPair p (sortPairs ps)

/-- The gates found by `merge_condeq` (congruence.c:3646-3673): left hand side, then and else literal. -/
def mergeCondEq : List (Nat × Nat) → List (Nat × Nat) → List (Nat × Nat × Nat)
  | [], _ => []
  | (lhs, thenLit) :: ps, qs =>
    let qs := qs.dropWhile fun q => q.1 < lhs
    ((qs.takeWhile fun q => q.1 = lhs).map fun q => (lhs, thenLit, q.2)) ++
      mergeCondEq ps (qs.dropWhile fun q => q.1 = lhs)

/-- `new_ite_gate` for all gates (congruence.c:3666-3671). -/
def Closure.newItes (c : Closure) (order : State → List Nat) (cond : Nat) : List (Nat × Nat × Nat) → Closure
  | [] => c
  | (lhs, t, e) :: rest =>
    let c := c.newIte order lhs cond t e
    if c.solver.inconsistent then c else c.newItes order cond rest

/-- `extract_ite_gates_of_variable` (congruence.c:3675-3720).  Which of the literals is first matters only for
the time it takes. -/
def Closure.itesOfVariable (c : Closure) (order : State → List Nat) (ternaries : List (List Nat)) (idx : Nat) : Closure :=
  c.newItes order (2 * idx)
    (mergeCondEq (sortPairs (condEq (condBin c.solver.values ternaries (2 * idx + 1))))
      (sortPairs (condEq (condBin c.solver.values ternaries (2 * idx)))))

/-- `extract_ite_gates` (congruence.c:3937-3981). -/
def Closure.extractItes (c : Closure) (order : State → List Nat) (ternaries : List (List Nat)) : List Nat → Closure
  | [] => c
  | idx :: rest =>
    if c.solver.inconsistent then c
    else if c.solver.active idx then (c.itesOfVariable order ternaries idx).extractItes order ternaries rest
    else c.extractItes order ternaries rest

/-! ## Units and equivalences from binary clauses -/

/-- The other literals of the binary clauses which watch a literal (all binary clauses are irredundant). -/
def others (s : State) (l : Nat) : List Nat :=
  (List.range s.arena.length).filterMap fun r =>
    if !(s.clause r).garbage && !(s.clause r).redundant && (s.clause r).lits.contains l then s.binaryOther l r else none

/-- `find_units` (congruence.c:4028-4079).  A variable with a unit is not active afterwards. -/
def Closure.findUnits (c : Closure) (order : State → List Nat) : List Nat → Closure
  | [] => c
  | idx :: rest =>
    if c.solver.inconsistent then c
    else if !c.solver.active idx then c.findUnits order rest
    else
      let unit (l : Nat) := (others c.solver l).any fun o => (others c.solver l).contains (neg o)
      if unit (2 * idx) then (c.learnUnit order (2 * idx)).findUnits order rest
      else if unit (2 * idx + 1) then (c.learnUnit order (2 * idx + 1)).findUnits order rest
      else c.findUnits order rest

/-- The first literal found equivalent to `lit`, with another representative (congruence.c:4089-4137). -/
def Closure.equivalent (c : Closure) (lit : Nat) : Option Nat :=
  (others c.solver (neg lit)).find? fun other =>
    neg lit < other && other ≠ lit && lit < neg other && (others c.solver lit).contains (neg other) &&
      c.findRepr lit ≠ c.findRepr other

/-- One variable of `find_equivalences`, until nothing is found (`RESTART` in congruence.c:4089-4139). -/
def Closure.findEquivalent (c : Closure) (order : State → List Nat) (idx : Nat) : Nat → Closure
  | 0 => c
  | fuel + 1 =>
    if c.solver.inconsistent || !c.solver.active idx then c
    else match c.equivalent (2 * idx) with
      | none => c
      | some other => (c.merge order (2 * idx) other).findEquivalent order idx fuel

/-- `find_equivalences` (congruence.c:4081-4146), with a bound on the number of iterations for each variable. -/
def Closure.findEquivalences (c : Closure) (order : State → List Nat) : List (Nat × Nat) → Closure
  | [] => c
  | (idx, fuel) :: rest =>
    if c.solver.inconsistent then c else (c.findEquivalent order idx fuel).findEquivalences order rest

/-! ## Forward subsumption -/

/-- Clauses which are satisfied or have complementary representatives are deleted (congruence.c:4454-4515). -/
def Closure.deleteTrivial (c : Closure) : List Nat → Closure
  | [] => c
  | r :: rs =>
    let lits := (c.solver.clause r).lits
    if (c.solver.clause r).garbage || lits.length < 3 then c.deleteTrivial rs
    else if (lits.any fun l => c.solver.values l > 0) ||
        (lits.any fun l => lits.any fun k => c.solver.values l = 0 && c.solver.values k = 0 && c.findRepr l = neg (c.findRepr k)) then
      Closure.deleteTrivial { c with solver := c.solver.markGarbage r } rs
    else c.deleteTrivial rs

/-- Whether the clause `d` subsumes the clause `r` (congruence.c:4388-4405). -/
def Closure.subsumes (c : Closure) (d r : Nat) : Bool :=
  !(c.solver.clause d).garbage && d ≠ r && ((c.solver.clause r).redundant || !(c.solver.clause d).redundant) &&
  (c.solver.clause d).lits.all fun o =>
    c.solver.values o < 0 ||
    (c.solver.clause r).lits.any fun l => !(c.solver.values (c.findRepr l) < 0) && c.findRepr l = c.findRepr o

/-- `find_subsuming_clause` (congruence.c:4346-4428) for all candidates, each with the connected clauses. -/
def Closure.forwardSubsume (c : Closure) : List (Nat × List Nat) → Closure
  | [] => c
  | (r, conn) :: rest =>
    if !(c.solver.clause r).garbage && 3 ≤ (c.solver.clause r).lits.length && conn.any fun d => c.subsumes d r then
      Closure.forwardSubsume { c with solver := c.solver.markGarbage r } rest
    else c.forwardSubsume rest

/-! ## The main function -/

/-- The choices of one call of `kissat_congruence`. -/
structure Options where
  /-- the order in which propagation visits clauses -/
  order : State → List Nat
  /-- clauses for `extract_binaries` -/
  ternaries : List Nat
  /-- base clauses of AND gates with candidates for left hand sides -/
  ands : List (Nat × List Nat)
  /-- clauses visited before XOR gates are extracted -/
  xorVisited : List Nat
  /-- clauses connected for XOR gates -/
  xorConnected : List Nat
  /-- base clauses of XOR gates with clauses visited -/
  xors : List (Nat × List Nat)
  /-- clauses visited before if-then-else gates are extracted -/
  iteVisited : List Nat
  /-- clauses connected for if-then-else gates -/
  iteConnected : List Nat
  /-- variables tried as conditions -/
  ites : List Nat
  /-- variables tried in `find_units` -/
  units : List Nat
  /-- variables tried in `find_equivalences` -/
  equivalences : List (Nat × Nat)
  /-- number of iterations of `propagate_units_and_equivalences` -/
  iterations : Nat
  /-- whether `forward_subsume_matching_clauses` is called -/
  forward : Bool
  /-- clauses considered for subsumption -/
  considered : List Nat
  /-- candidates for subsumption, with clauses connected before -/
  candidates : List (Nat × List Nat)

/-- `kissat_resume_sparse_mode` (dense.c:199-235) with `flush_eliminated` false. -/
def Closure.resumeSparse (c : Closure) (order : State → List Nat) : Closure :=
  if c.solver.inconsistent then c
  else { c with solver := c.solver.propagateRoot (fun _ => true) (order c.solver) }

/-- The gates are extracted while the solver does not watch clauses (congruence.c:4003-4011). -/
def Closure.extract (c : Closure) (o : Options) : Closure :=
  let c := c.extractBinaries o.order o.ternaries
  let c := c.extractAnds o.order c.binaries o.ands
  if c.solver.inconsistent then c
  else
    let c := Closure.extractXors { c with solver := markSatisfied c.solver o.xorVisited } o.order o.xorConnected o.xors
    if c.solver.inconsistent then c
    else
      let c := { c with solver := markSatisfied c.solver o.iteVisited }
      c.extractItes o.order (o.iteConnected.filterMap (ternary c.solver)) o.ites

/-- `extract_gates` (congruence.c:3994-4026). -/
def Closure.extractGates (c : Closure) (o : Options) : Closure := (c.enterDense.extract o).resumeSparse o.order

/-- `forward_subsume_matching_clauses` (congruence.c:4443-4575). -/
def Closure.subsumeMatching (c : Closure) (o : Options) : Closure :=
  ((c.enterDense.deleteTrivial o.considered).forwardSubsume o.candidates).resumeSparse o.order

/-- `kissat_congruence` (congruence.c:4577-4635), before forward subsumption. -/
def closed (s : State) (o : Options) : Closure :=
  let c := (start s).extractGates o
  if c.solver.inconsistent then c
  else
    let c := Closure.findUnits { c with units := c.solver.trail.length } o.order o.units
    if c.solver.inconsistent then c
    else
      let c := c.findEquivalences o.order o.equivalences
      if c.solver.inconsistent then c else c.propagateAll o.order o.iterations

/-- `kissat_congruence` (congruence.c:4577-4635). -/
def congruence (s : State) (o : Options) : Closure :=
  let c := closed s o
  if c.solver.inconsistent || !o.forward then c else c.subsumeMatching o

end Verif.Congruence
