import Verif.Spec.Cnf
import Verif.Model.Containers.Sort
import Verif.Model.Bits

/-! # The internal proof checker: `check.c`

The arrays `marks`, `large`, `used`, `values` and `watches` are total functions here; the
code enlarges and clears them when a variable is seen for the first time
(`resize_checker`, check.c:523-565).  `marks` is cleared at the end of every function that
uses it, hence the marked literals are local lists.  Assertions are part of the code since
the file is empty if `NDEBUG` is defined. -/

namespace Verif.Check

open Verif.Spec (neg)

/-- `struct bucket` (check.c:65-70) without the link to the next one. -/
structure Line where
  lits : List Nat
  hash : Nat

/-- `struct checker` (check.c:72-110) without statistics.  Buckets are numbered in the order
of allocation, `table` gives the chains of the hash table. -/
structure Checker where
  inconsistent : Bool
  vars : Nat
  hashed : Nat
  buckets : Nat
  table : Nat → List Nat
  lines : List Line
  watches : Nat → List Nat
  large : Nat → Bool
  used : Nat → Bool
  values : Nat → Int
  trail : List Nat
  propagated : Nat

/-- `kissat_init_checker` (check.c:150-155). -/
def Checker.init : Checker :=
  ⟨false, 0, 0, 0, fun _ => [], [], fun _ => [], fun _ => false, fun _ => false, fun _ => 0, [], 0⟩

/-- `init_nonces` (check.c:140-148). -/
def initNonces (i : Nat) : Nat :=
  1 ||| ((Model.Bits.nextRandom32 ((List.range i).foldl (fun g _ => Model.Bits.nextRandom64 g) 42)).1)

/-- Writing to an array. -/
def put {β : Type} (f : Nat → β) (i : Nat) (b : β) : Nat → β := fun j => if j = i then b else f j

/-- The line with the given number. -/
def Checker.line (c : Checker) (i : Nat) : Line := c.lines.getD i ⟨[], 0⟩

/-- `sort_line` (check.c:121-124). -/
def sortLine (imported : List Nat) : Option (List Nat) :=
  Model.Sort.sortStack (fun a b => decide (a < b)) imported

/-- The loop of `hash_line` (check.c:128-132); arithmetic of `unsigned` wraps around. -/
def hashFrom (nonces : Nat → Nat) : Nat → List Nat → Nat → Nat
  | _, [], res => res
  | pos, l :: ls, res =>
    hashFrom nonces (if pos + 1 = 32 then 0 else pos + 1) ls ((res + nonces pos * l) % 2 ^ 32)

/-- `hash_line` (check.c:126-134).  The 32 numbers `nonces` are pseudo random. -/
def hashLine (nonces : Nat → Nat) (imported : List Nat) : Nat := hashFrom nonces 0 imported 0

/-- The loop of `reduce_hash` (check.c:239-241) with the values of `shift` and `mask`. -/
def reduceLoop (mod : Nat) : List (Nat × Nat) → Nat → Nat
  | [], res => res
  | (shift, mask) :: ls, res =>
    if mod ≤ res then reduceLoop mod ls ((res >>> shift) &&& mask) else res

/-- `reduce_hash` (check.c:234-244).  After five iterations the result is at most one,
hence less than `mod`. -/
def reduceHash (hash mod : Nat) : Nat :=
  if mod < 2 then 0
  else reduceLoop mod [(16, 65535), (8, 255), (4, 15), (2, 3), (1, 1)] hash

/-- `resize_hash` (check.c:246-263). -/
def Checker.resizeHash (c : Checker) : Checker :=
  let new := if c.hashed = 0 then 1 else 2 * c.hashed
  { c with
    hashed := new
    table := ((List.range c.hashed).flatMap c.table).foldl (fun table i =>
      put table (reduceHash (c.line i).hash new) (i :: table (reduceHash (c.line i).hash new)))
      fun _ => [] }

/-- `checker_assign` (check.c:282-302). -/
def Checker.assign (c : Checker) (lit : Nat) : Checker :=
  { c with
    values := put (put c.values lit 1) (neg lit) (-1)
    trail := c.trail ++ [lit] }

/-- `watch_checker_literal` (check.c:309-314). -/
def Checker.watch (c : Checker) (i lit : Nat) : Checker :=
  { c with watches := put c.watches lit (c.watches lit ++ [i]) }

/-- `unwatch_checker_literal` (check.c:316-324). -/
def Checker.unwatch (c : Checker) (i lit : Nat) : Checker :=
  { c with watches := put c.watches lit ((c.watches lit).erase i) }

/-- `unwatch_line` (check.c:326-332). -/
def Checker.unwatchLine (c : Checker) (i : Nat) : Checker :=
  (c.unwatch i ((c.line i).lits.getD 0 0)).unwatch i ((c.line i).lits.getD 1 0)

/-- `satisfied_or_trivial_imported` (check.c:334-362). -/
def satisfiedOrTrivial (values : Nat → Int) : List Nat → List Nat → Bool
  | [], _ => false
  | lit :: rest, marks =>
    if lit ∈ marks then satisfiedOrTrivial values rest marks
    else if neg lit ∈ marks then true
    else if 0 < values lit then true
    else satisfiedOrTrivial values rest (lit :: marks)

/-- Swap two positions. -/
def swap (lits : List Nat) (i j : Nat) : List Nat :=
  (lits.set i (lits.getD j 0)).set j (lits.getD i 0)

/-- The loop of `simplify_imported` (check.c:393-422) starting at position `i` with `n`
positions left: `none` for a trivial or satisfied clause. -/
def simplifyLoop (values : Nat → Int) : Nat → Nat → List Nat → List Nat → Nat →
    Option (List Nat × Nat)
  | 0, _, lits, _, nonFalse => some (lits, nonFalse)
  | n + 1, i, lits, marks, nonFalse =>
    let lit := lits.getD i 0
    if lit ∈ marks then simplifyLoop values n (i + 1) lits marks nonFalse
    else if neg lit ∈ marks then none
    else if values lit < 0 then simplifyLoop values n (i + 1) lits (lit :: marks) nonFalse
    else if 0 < values lit then none
    else
      let lits :=
        if nonFalse = 0 then swap lits i 0 else if nonFalse = 1 then swap lits i 1 else lits
      simplifyLoop values n (i + 1) lits (lit :: marks) (nonFalse + 1)

/-- `simplify_imported` (check.c:378-441): the new checker and, if the clause has to be
inserted, its reordered literals. -/
def Checker.simplify (c : Checker) (imported : List Nat) : Checker × Option (List Nat) :=
  if c.inconsistent then (c, none)
  else
    match simplifyLoop c.values imported.length 0 imported [] 0 with
    | none => (c, none)
    | some (lits, nonFalse) =>
      if nonFalse = 0 then ({ c with inconsistent := true }, none)
      else if nonFalse = 1 then (c.assign (lits.getD 0 0), none)
      else (c, some lits)

/-- `use_line` with `use_literal` and `large_literal` (check.c:443-472). -/
def Checker.useLine (c : Checker) (lits : List Nat) : Checker :=
  { c with
    used := fun l => c.used l || lits.contains l
    large := fun l => c.large l || (decide (2 < lits.length) && lits.contains l) }

/-- `insert_imported` (check.c:474-494) with `new_line` (check.c:265-274). -/
def Checker.insert (c : Checker) (lits : List Nat) (hash : Nat) : Checker :=
  let c := if c.buckets = c.hashed then c.resizeHash else c
  let i := c.lines.length
  let reduced := reduceHash hash c.hashed
  let c := { c with
    lines := c.lines ++ [Line.mk lits hash]
    table := put c.table reduced (i :: c.table reduced) }
  let c := (c.watch i (lits.getD 0 0)).watch i (lits.getD 1 0)
  { c with buckets := c.buckets + 1 }

/-- Result of an operation: `abort` if the process is aborted with a message, `stuck` for
non termination. -/
inductive Outcome
  | ok (c : Checker)
  | abort
  | stuck

/-- `insert_imported_if_not_simplified` (check.c:496-504). -/
def Checker.insertIfNotSimplified (nonces : Nat → Nat) (c : Checker) (imported : List Nat) :
    Outcome :=
  match sortLine imported with
  | none => .stuck
  | some sorted =>
    match c.simplify sorted with
    | (c, none) => .ok c
    | (c, some lits) => .ok ((c.insert lits (hashLine nonces sorted)).useLine lits)

/-- `match_line` (check.c:506-521). -/
def Checker.matchLine (c : Checker) (imported : List Nat) (hash i : Nat) : Bool :=
  decide ((c.line i).lits.length = imported.length) && decide ((c.line i).hash = hash) &&
    (c.line i).lits.all fun l => imported.contains l

/-- `find_line` (check.c:588-606) without unlinking. -/
def Checker.findLine (nonces : Nat → Nat) (c : Checker) (imported : List Nat) :
    Option (Option Nat) :=
  if c.hashed = 0 then some none
  else
    match sortLine imported with
    | none => none
    | some sorted =>
      let hash := hashLine nonces sorted
      some ((c.table (reduceHash hash c.hashed)).find? (c.matchLine sorted hash))

/-- `remove_line` (check.c:608-625) with the unlinking of `find_line` (check.c:603-604). -/
def Checker.removeLine (nonces : Nat → Nat) (c : Checker) (imported : List Nat) : Outcome :=
  match c.findLine nonces imported with
  | none => .stuck
  | some none => .abort
  | some (some i) =>
    let reduced := reduceHash (c.line i).hash c.hashed
    let c := { c with table := put c.table reduced ((c.table reduced).erase i) }
    let c := c.unwatchLine i
    .ok { c with buckets := c.buckets - 1 }

/-- Search for a replacement (check.c:703-712) among the literals from position `r` on. -/
def findReplacement (values : Nat → Int) (other notLit : Nat) : List Nat → Nat →
    Option (Nat × Nat)
  | [], _ => none
  | l :: ls, r =>
    if l = other then findReplacement values other notLit ls (r + 1)
    else if l = notLit then findReplacement values other notLit ls (r + 1)
    else if 0 ≤ values l then some (r, l)
    else findReplacement values other notLit ls (r + 1)

/-- Overwriting the literals of a line (check.c:713-715). -/
def Checker.setLits (c : Checker) (i : Nat) (lits : List Nat) : Checker :=
  { c with lines := c.lines.set i ⟨lits, (c.line i).hash⟩ }

/-- The loop over the lines watched by `notLit` (check.c:690-726).  The list is rebuilt:
`watches notLit` are the lines kept so far and the first argument is the rest. -/
def watchLoop (notLit : Nat) : List Nat → Checker → Checker × Bool
  | [], c => (c, true)
  | i :: rest, c =>
    let lits := (c.line i).lits
    let other := notLit ^^^ lits.getD 0 0 ^^^ lits.getD 1 0
    if 0 < c.values other then watchLoop notLit rest (c.watch i notLit)
    else
      match findReplacement c.values other notLit (lits.drop 2) 2 with
      | some (r, replacement) =>
        watchLoop notLit rest ((c.setLits i
          (((lits.set 0 other).set 1 replacement).set r notLit)).watch i replacement)
      | none =>
        if c.values other < 0 then
          ({ c with watches := put c.watches notLit (c.watches notLit ++ i :: rest) }, false)
        else watchLoop notLit rest ((c.assign other).watch i notLit)

/-- The loop of `checker_propagate` (check.c:679-728); `none` if more than `n` iterations
are needed. -/
def propagateLoop : Nat → Checker → Option (Checker × Bool)
  | 0, _ => none
  | n + 1, c =>
    match c.trail[c.propagated]? with
    | none => some (c, true)
    | some lit =>
      match watchLoop (neg lit) (c.watches (neg lit))
          { c with propagated := c.propagated + 1, watches := put c.watches (neg lit) [] } with
      | (c, false) => some (c, false)
      | (c, true) => propagateLoop n c

/-- `checker_propagate` (check.c:675-731). -/
def Checker.propagate (c : Checker) : Option (Checker × Bool) := propagateLoop (c.vars + 1) c

/-- The results of `bucket_redundant` (check.c:732-762), with the checker after propagation;
`fatal` for its fatal errors and `stuck` if propagation does not end. -/
inductive Redundancy
  | yes (c : Checker)
  | no (c : Checker)
  | fatal
  | stuck

/-- `bucket_redundant` (check.c:732-762). -/
def Checker.redundant (c : Checker) (imported : List Nat) : Redundancy :=
  match c.propagate with
  | none => .stuck
  | some (c, false) => .yes { c with inconsistent := true }
  | some (c, true) =>
    if c.inconsistent then .yes c
    else
      match imported with
      | [] => .fatal
      | [unit] => if c.values unit ≤ 0 then .fatal else .yes c
      | _ => if satisfiedOrTrivial c.values imported [] then .yes c else .no c

/-- `remove_line_if_not_redundant` (check.c:764-769). -/
def Checker.removeIfNotRedundant (nonces : Nat → Nat) (c : Checker) (imported : List Nat) :
    Outcome :=
  match c.redundant imported with
  | .stuck => .stuck
  | .fatal => .abort
  | .yes c => .ok c
  | .no c => c.removeLine nonces imported

/-- `checker_backtrack` (check.c:771-785). -/
def Checker.backtrack (c : Checker) (saved : Nat) : Checker :=
  { c with
    values := fun l => if l ∈ c.trail.drop saved ∨ neg l ∈ c.trail.drop saved then 0 else c.values l
    trail := c.trail.take saved
    propagated := saved }

/-- `checker_blocked_literal` (check.c:787-819). -/
def Checker.blockedLiteral (c : Checker) (lit : Nat) : Bool :=
  !c.large (neg lit) && (c.watches (neg lit)).all fun i =>
    (c.line i).lits.any fun other => decide (other ≠ neg lit) && decide (0 < c.values other)

/-- Outcome of the loop assigning the negation of the literals. -/
inductive Decided
  | failedAssertion
  | accepted (c : Checker)
  | assigned (c : Checker)

/-- The loop over the literals in `check_line` (check.c:842-863); the second argument is
the variable `prev`. -/
def decideLoop : List Nat → Option Nat → Checker → Decided
  | [], _, c => .assigned c
  | lit :: rest, prev, c =>
    if prev = some lit then .failedAssertion
    else if c.values lit < 0 then decideLoop rest (some lit) c
    else if 0 < c.values lit then .accepted c
    else if !c.used (neg lit) then .accepted c
    else decideLoop rest (some lit) (c.assign (neg lit))

/-- `check_line` (check.c:828-883). -/
def Checker.checkLine (c : Checker) (imported : List Nat) : Outcome :=
  if c.inconsistent then .ok c
  else
    match c.propagate with
    | none => .stuck
    | some (c, false) => .ok { c with inconsistent := true }
    | some (c, true) =>
      let saved := c.trail.length
      match decideLoop imported none c with
      | .failedAssertion => .abort
      | .accepted c => .ok (c.backtrack saved)
      | .assigned c =>
        match c.propagate with
        | none => .stuck
        | some (c, false) => .ok (c.backtrack saved)
        | some (c, true) =>
          if imported.any c.blockedLiteral then .ok (c.backtrack saved) else .abort

/-- `import_external_checker` (check.c:567-575). -/
def importLit (e : Int) : Nat := 2 * (e.natAbs - 1) + if e < 0 then 1 else 0

/-- The part of importing literals which enlarges the checker (check.c:570-571). -/
def Checker.enlarge (c : Checker) (imported : List Nat) : Checker :=
  { c with vars := imported.foldl (fun vars l => max vars (l / 2 + 1)) c.vars }

/-- What the solver asks the checker to do.  Internal literals are exported first
(check.c:577-581). -/
inductive Op
  /-- `kissat_add_unchecked_external`, `.._internal` (check.c:885-902) -/
  | original (clause : List Int)
  /-- `kissat_check_and_add_binary`, `.._clause`, `.._empty`, `.._internal`, `.._unit`
  (check.c:904-946) -/
  | check (clause : List Int)
  /-- `kissat_remove_checker_binary`, `.._clause`, `.._external`, `.._internal`
  (check.c:969-1008).  Shrinking a clause (check.c:948-967) is `check` followed by
  `remove`. -/
  | remove (clause : List Int)

/-- Execution of an operation. -/
def Checker.exec (nonces : Nat → Nat) (c : Checker) : Op → Outcome
  | .original es =>
    (c.enlarge (es.map importLit)).insertIfNotSimplified nonces (es.map importLit)
  | .check es =>
    match (c.enlarge (es.map importLit)).checkLine (es.map importLit) with
    | .ok c => c.insertIfNotSimplified nonces (es.map importLit)
    | r => r
  | .remove es =>
    (c.enlarge (es.map importLit)).removeIfNotRedundant nonces (es.map importLit)

/-- Execution of a sequence of operations. -/
def Checker.execAll (nonces : Nat → Nat) : List Op → Checker → Outcome
  | [], c => .ok c
  | o :: os, c =>
    match c.exec nonces o with
    | .ok c => execAll nonces os c
    | r => r

/-- The search for two complementary literals (check.c:35-38). -/
def hasComplement : List Int → Bool
  | [] => false
  | lit :: rest => (rest.any fun other => decide (lit = - other)) || hasComplement rest

/-- `kissat_check_satisfying_assignment` (check.c:17-49) for the original clauses, given
`kissat_value`: false if it aborts. -/
def checkAssignment (value : Int → Int) (original : List (List Int)) : Bool :=
  original.all fun c => (c.any fun lit => decide (value lit = lit)) || hasComplement c

end Verif.Check
