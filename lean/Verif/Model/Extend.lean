import Verif.Spec.Reconstruct

/-!
# Weakening and extension of models: `weaken.c`, `extend.c`, `kissat_value`

Simplification: 31-bit fields of `struct extension` and `struct import` are unbounded; only
the fields needed are in the state.  `none` is an access out of bounds.
-/

namespace Verif.Model.Extend

/-- `struct import` (internal.h:35-40). -/
structure Import where
  lit : Nat
  imported : Bool
  eliminated : Bool
  deriving DecidableEq

/-- `struct extension` (extend.h:9-12). -/
structure Extension where
  lit : Int
  blocking : Bool
  deriving DecidableEq

/-- The fields of the solver used here (internal.h:83-123). -/
structure State where
  /-- `solver->export` -/
  exports : List Int
  /-- `solver->import` -/
  imports : List Import
  /-- `solver->values` -/
  values : Nat → Int
  /-- `solver->extend` -/
  extend : List Extension
  /-- `solver->eliminated` -/
  eliminated : List Int
  /-- `solver->etrail` -/
  etrail : List Nat
  extended : Bool

/-- `kissat_export_literal` (inline.h:196-207). -/
def State.exportLiteral (s : State) (ilit : Nat) : Int :=
  let elit := s.exports.getD (ilit / 2) 0
  if ilit % 2 = 1 then - elit else elit

/-- `push_witness_literal` (weaken.c:4-11). -/
def State.pushWitness (s : State) (ilit : Nat) : State :=
  { s with extend := s.extend ++ [⟨s.exportLiteral ilit, true⟩] }

/-- `push_clause_literal` (weaken.c:13-27). -/
def State.pushLiteral (s : State) (ilit : Nat) : State :=
  if s.values ilit < 0 then s
  else { s with extend := s.extend ++ [⟨s.exportLiteral ilit, false⟩] }

/-- `kissat_weaken_clause` (weaken.c:36-44). -/
def State.weakenClause (s : State) (lit : Nat) (c : List Nat) : State :=
  c.foldl (fun s other => if lit ≠ other then s.pushLiteral other else s) (s.pushWitness lit)

/-- `kissat_weaken_binary` (weaken.c:46-52). -/
def State.weakenBinary (s : State) (lit other : Nat) : State :=
  (s.pushWitness lit).pushLiteral other

/-- `kissat_weaken_unit` (weaken.c:54-60). -/
def State.weakenUnit (s : State) (lit : Nat) : State := s.pushWitness lit

/-- The part of `kissat_mark_eliminated_variable` (flags.c:86-99) that concerns the import
table. -/
def State.markEliminated (s : State) (idx : Nat) : State :=
  let eidx := (s.exportLiteral (2 * idx)).natAbs
  { s with
    imports := s.imports.modify eidx fun i => { i with lit := s.eliminated.length, eliminated := true }
    eliminated := s.eliminated ++ [0] }

/-- `undo_eliminated_assignment` (extend.c:4-26). -/
def State.undo (s : State) : State :=
  { s with
    eliminated := s.etrail.foldr (fun pos values => values.set pos 0) s.eliminated
    etrail := [] }

/-- `extend_assign` (extend.c:28-42). -/
def State.assign (s : State) (lit : Int) : Option State :=
  match s.imports[lit.natAbs]? with
  | none => none
  | some i =>
    if i.lit < s.eliminated.length then
      some { s with
        eliminated := s.eliminated.set i.lit (if lit < 0 then -1 else 1)
        etrail := s.etrail ++ [i.lit] }
    else none

/-- The local variables of the loop over one clause (extend.c:68-75). -/
structure Local where
  size : Nat
  pos : Nat
  satisfied : Bool
  eliminated : Int
  deriving DecidableEq

/-- Before the first literal of a clause (extend.c:68-72). -/
def Local.init : Local := ⟨0, 2 ^ 32 - 1, false, 0⟩

/-- One literal of a clause (extend.c:80-129). -/
def State.visit (s : State) (l : Local) (elit : Int) : Option Local :=
  let l := { l with size := l.size + 1 }
  if l.satisfied then some l
  else
    match s.imports[elit.natAbs]? with
    | none => none
    | some i =>
      if i.eliminated then
        match s.eliminated[i.lit]? with
        | none => none
        | some value =>
          let value := if elit < 0 then - value else value
          if 0 < value then some { l with satisfied := true }
          else if value = 0 ∧ (l.eliminated = 0 ∨ l.pos < i.lit) then
            some { l with eliminated := elit, pos := i.lit }
          else some l
      else
        let value := s.values i.lit
        let value := if elit < 0 then - value else value
        if 0 < value then some { l with satisfied := true } else some l

/-- After the last literal of a clause (extend.c:132-164). -/
def State.finish (s : State) (l : Local) (blocking : Int) : Option State :=
  if l.satisfied then some s
  else if l.eliminated ≠ 0 ∧ l.eliminated ≠ blocking then s.assign l.eliminated
  else s.assign blocking

/-- The loop over the extension stack from its end (extend.c:67-165).  The list is the part
of the stack below `p`, last entry first. -/
def State.loop (s : State) (l : Local) : List Extension → Option State
  | [] => if l.size = 0 then some s else none
  | ext :: rest =>
    match s.visit l ext.lit with
    | none => none
    | some l =>
      if ext.blocking then
        match s.finish l ext.lit with
        | none => none
        | some s => s.loop .init rest
      else s.loop l rest

/-- `kissat_extend` (extend.c:44-177). -/
def State.extendModel (s : State) : Option State :=
  let s := ({ s with extended := true }).undo
  s.loop .init s.extend.reverse

/-- The value of an entry of the import table, after extension (internal.c:500-507). -/
def State.lookup (s : State) (i : Import) : Option Int :=
  if i.eliminated then s.eliminated[i.lit]? else some (s.values i.lit)

/-- `kissat_value` for a valid literal (internal.c:488-512). -/
def State.value (s : State) (elit : Int) : Option (Int × State) :=
  match s.imports[elit.natAbs]? with
  | none => some (0, s)
  | some i =>
    if !i.imported then some (0, s)
    else
      let s' := if i.eliminated ∧ s.extended = false ∧ s.extend ≠ [] then s.extendModel else some s
      match s' with
      | none => none
      | some s =>
        match s.lookup i with
        | none => none
        | some tmp =>
          if tmp = 0 then some (0, s)
          else
            let tmp := if elit < 0 then - tmp else tmp
            some (if tmp < 0 then - elit else elit, s)

end Verif.Model.Extend
