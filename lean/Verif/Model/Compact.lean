import Verif.Spec.Cnf
import Verif.Model.Queue
import Verif.Model.Heap

/-!
# Compacting garbage collection (compact.c, collect.c)

`kissat_sparse_collect` with `compact` set, which renumbers the internal variables.

Simplifications: arrays are functions with a separate size.  A large clause has no
reference, so references in `last_learned`, in reasons and in watch lists are left out,
and with them `move_redundant_clauses_to_the_end`, the conversion of a reason which becomes
binary and `rewatch_clauses`.  `bins lit` are the binary clauses in the watch list of `lit`.
The start of the collection is zero, as it is whenever `compact` is set (reduce.c:161,
collect.c:652).
-/

namespace Verif.Compact

open Verif.Spec
open Verif.Core (upd)
open Verif.Model.Queue (Queue)
open Verif.Model.Heap (Heap)

/-- `struct import` (internal.h:45-50). -/
structure Import where
  lit : Nat
  imported : Bool
  eliminated : Bool
  deriving DecidableEq

/-- The part of `struct flags` (flags.h:8-19) which says what a variable is. -/
structure Flags where
  active : Bool
  eliminated : Bool
  fixed : Bool
  deriving DecidableEq

/-- `struct assigned` (assign.h:15-26). -/
structure Assigned where
  level : Nat
  trail : Nat
  binary : Bool
  reason : Nat
  deriving DecidableEq

/-- A large clause in the arena. -/
structure Clause where
  garbage : Bool
  redundant : Bool
  lits : List Nat
  deriving DecidableEq

/-- The tables of the solver which are indexed by internal variables or literals, or hold
some of them. -/
structure Tables where
  vars : Nat
  /-- `SIZE_STACK (solver->import)` -/
  size : Nat
  imports : Nat → Import
  exports : Nat → Int
  units : List Int
  /-- `solver->eliminated` after `kissat_extend` -/
  eliminated : Nat → Int
  flags : Nat → Flags
  values : Nat → Int
  assigned : Nat → Assigned
  best : Nat → Int
  saved : Nat → Int
  target : Nat → Int
  bestAssigned : Nat
  targetAssigned : Nat
  queue : Queue
  sweep : List Nat
  trail : List Nat
  frames : List Nat
  bins : Nat → List Nat
  clauses : List Clause

/-- `kissat_value` (internal.c:488-512). -/
def Tables.value (t : Tables) (elit : Int) : Int :=
  let eidx := elit.natAbs
  if t.size ≤ eidx then 0
  else
    let i := t.imports eidx
    if !i.imported then 0
    else
      let tmp := if i.eliminated then t.eliminated i.lit else t.values i.lit
      if tmp = 0 then 0
      else
        let tmp := if elit < 0 then - tmp else tmp
        if tmp < 0 then - elit else elit

/-- `kissat_fixed` (inline.h:29-37). -/
def Tables.fixed (t : Tables) (lit : Nat) : Int :=
  if t.values lit ≠ 0 ∧ (t.assigned (lit / 2)).level ≠ 0 then 0 else t.values lit

/-- `kissat_export_literal` (inline.h:197-207). -/
def exportLiteral (exports : Nat → Int) (ilit : Nat) : Int :=
  let elit := exports (ilit / 2)
  if elit = 0 then 0
  else if ilit % 2 = 1 then - elit
  else elit

/-- `kissat_map_literal` (inline.h:209-224) with `map` set; `none` is `INVALID_LIT`. -/
def mapLiteral (imports : Nat → Import) (exports : Nat → Int) (ilit : Nat) : Option Nat :=
  let elit := exportLiteral exports ilit
  if elit = 0 then none
  else
    let i := imports elit.natAbs
    if i.eliminated then none
    else some (if elit < 0 then neg i.lit else i.lit)

/-- `map_idx` (compact.c:118-133); `none` is `INVALID_IDX`. -/
def mapIdx (imports : Nat → Import) (exports : Nat → Int) (iidx : Nat) : Option Nat :=
  let elit := exports iidx
  if elit = 0 then none
  else
    let i := imports elit.natAbs
    if i.eliminated then none
    else some (i.lit / 2)

/-- Variables of `kissat_compact_literals`. -/
structure Renumber where
  imports : Nat → Import
  exports : Nat → Int
  mfixed : Option Nat
  vars : Nat

/-- The end of the loop body in `kissat_compact_literals` (compact.c:79-88) with
`reimport_literal` (compact.c:9-17). -/
def reimport (r : Renumber) (iidx mlit : Nat) : Renumber :=
  if mlit = 2 * iidx then r
  else
    let elit := r.exports iidx
    let eidx := elit.natAbs
    let mlit := if elit < 0 then neg mlit else mlit
    { r with imports := upd r.imports eidx { r.imports eidx with lit := mlit } }

/-- Loop body of `kissat_compact_literals` (compact.c:37-89). -/
def renumberStep (t : Tables) (r : Renumber) (iidx : Nat) : Renumber :=
  let flags := t.flags iidx
  if flags.eliminated then r
  else if flags.fixed then
    let value := t.fixed (2 * iidx)
    match r.mfixed with
    | none =>
      let mlit := 2 * r.vars
      reimport { r with
        mfixed := some (if value < 0 then neg mlit else mlit)
        vars := r.vars + 1 } iidx mlit
    | some mfixed => reimport r iidx (if value < 0 then neg mfixed else mfixed)
  else if flags.active then
    reimport { r with vars := r.vars + 1 } iidx (2 * r.vars)
  else
    let elit := r.exports iidx
    if elit ≠ 0 then
      let eidx := elit.natAbs
      { r with
        imports := upd r.imports eidx { r.imports eidx with imported := false }
        exports := upd r.exports iidx 0 }
    else r

/-- `kissat_compact_literals` (compact.c:19-95). -/
def compactLiterals (t : Tables) : Renumber :=
  (List.range t.vars).foldl (renumberStep t) ⟨t.imports, t.exports, none, 0⟩

/-- `flush_watched_clauses_by_literal` (collect.c:16-101), binary clauses only. -/
def flushWatched (t : Tables) (map : Nat → Option Nat) (bins : Nat → List Nat) (lit : Nat) :
    Nat → List Nat :=
  let litFixed := t.fixed lit
  let kept := (bins lit).filterMap fun other =>
    if 0 < litFixed ∨ 0 < t.fixed other then none else map other
  let bins := upd bins lit kept
  match map lit with
  | none => bins
  | some mlit =>
    if litFixed ≠ 0 then bins
    else if mlit < lit then upd (upd bins mlit kept) lit []
    else bins

/-- `flush_all_watched_clauses` (collect.c:103-113). -/
def flushAll (t : Tables) (map : Nat → Option Nat) : Nat → List Nat :=
  (List.range (2 * t.vars)).foldl (flushWatched t map) t.bins

/-- Loop over the literals of a clause (collect.c:353-391): `none` if the clause is satisfied
on root level. -/
def sweepLiterals (t : Tables) (map : Nat → Option Nat) : List Nat → Option (List (Option Nat))
  | [] => some []
  | lit :: lits =>
    if t.fixed lit < 0 then sweepLiterals t map lits
    else if 0 < t.fixed lit then none
    else (sweepLiterals t map lits).map (map lit :: ·)

/-- `kissat_watch_binary` (inline.h:101-105). -/
def watchBinary (bins : Nat → List Nat) (a b : Nat) : Nat → List Nat :=
  let bins := upd bins a (bins a ++ [b])
  upd bins b (bins b ++ [a])

/-- `sparse_sweep_garbage_clauses` (collect.c:277-576).  `none`: a literal of a clause is not
mapped (the code would write `INVALID_LIT`) or fewer than two literals are left. -/
def sweepClauses (t : Tables) (map : Nat → Option Nat) :
    List Clause → (Nat → List Nat) → Option (List Clause × (Nat → List Nat))
  | [], bins => some ([], bins)
  | c :: cs, bins =>
    if c.garbage then sweepClauses t map cs bins
    else
      match sweepLiterals t map c.lits with
      | none => sweepClauses t map cs bins
      | some mlits =>
        match mlits with
        | [] | [_] => none
        | [a, b] =>
          match a, b with
          | some a, some b => sweepClauses t map cs (watchBinary bins a b)
          | _, _ => none
        | mlits =>
          if mlits.all Option.isSome then
            (sweepClauses t map cs bins).map fun r =>
              ({ c with lits := mlits.filterMap id } :: r.1, r.2)
          else none

/-- The loop clearing exports (compact.c:338-345). -/
def clearExports (t : Tables) (r : Renumber) : Nat → Int :=
  ((List.range t.vars).foldl (fun (s : (Nat → Int) × Bool) iidx =>
    if (t.flags iidx).fixed && s.2 then (s.1, false)
    else if !(t.flags iidx).active then (upd s.1 iidx 0, s.2)
    else s) (r.exports, true)).1

/-- `compact_trail` (compact.c:208-226): the trail and `assigned`.  `none`: a literal is not
mapped. -/
def compactTrail (map : Nat → Option Nat) : List Nat → (Nat → Assigned) →
    Option (List Nat × (Nat → Assigned))
  | [], assigned => some ([], assigned)
  | ilit :: trail, assigned =>
    match map ilit with
    | none => none
    | some mlit =>
      let a := assigned (ilit / 2)
      if !a.binary then (compactTrail map trail assigned).map fun r => (mlit :: r.1, r.2)
      else
        match map a.reason with
        | none => none
        | some mother =>
          (compactTrail map trail (upd assigned (ilit / 2) { a with reason := mother })).map
            fun r => (mlit :: r.1, r.2)

/-- Copying the entries of an array from lower to higher source indices
(compact.c:97-116, 349-354 and 154-159, 245-253). -/
def copyUp {α : Type} (m : Nat → Option Nat) (n : Nat) (f : Nat → α) : Nat → α :=
  (List.range n).foldl (fun f iidx =>
    match m iidx with
    | none => f
    | some midx => upd f midx (f iidx)) f

/-- The same for arrays indexed by literals (compact.c:97-116, 349-354): both entries of a
variable are copied. -/
def copyValues (map : Nat → Option Nat) (n : Nat) (f : Nat → Int) : Nat → Int :=
  (List.range n).foldl (fun f iidx =>
    match map (2 * iidx) with
    | none => f
    | some mlit => upd (upd f mlit (f (2 * iidx))) (neg mlit) (f (neg (2 * iidx)))) f

/-- `compact_units` (compact.c:275-288). -/
def compactUnits (mfixed : Nat) (units : List Int) (imports : Nat → Import) : Nat → Import :=
  units.foldl (fun imports elit =>
    let eidx := elit.natAbs
    let mlit := if elit < 0 then neg mfixed else mfixed
    upd imports eidx { imports eidx with lit := mlit }) imports

/-- Reading `*p` where the pointer `p` is `&queue.first` (`none`) or `&links[l].next`
(compact.c:138, 140 and 151). -/
def place (q : Queue) : Option Nat → Option Nat
  | none => q.first
  | some l => q.next l

/-- Writing `*p` (compact.c:150 and 153). -/
def setPlace (q : Queue) (p x : Option Nat) : Queue :=
  match p with
  | none => { q with first := x }
  | some l => { q with next := upd q.next l x }

/-- The first loop of `compact_queue` (compact.c:140-151).  `p` is the place of the pointer
which is read and overwritten.  `none` as result: an index is not mapped or the loop does not end. -/
def queueLoop (m : Nat → Option Nat) : Nat → Option Nat → Option Nat → Queue →
    Option (Queue × Option Nat × Option Nat)
  | 0, _, _, _ => none
  | n + 1, p, prev, q =>
    match place q p with
    | none => some (q, p, prev)
    | some idx =>
      match m idx with
      | none => none
      | some midx =>
        let q := { q with
          prev := upd q.prev idx prev
          stamp := q.stamp + 1
          stampOf := upd q.stampOf idx (q.stamp + 1) }
        let q := if q.search = some idx then
            { q with search := some midx, searchStamp := q.stamp } else q
        queueLoop m n (some idx) (some midx) (setPlace q p (some midx))

/-- `compact_queue` (compact.c:135-160).  The new number of variables is part of the queue in
the model. -/
def compactQueue (m : Nat → Option Nat) (vars : Nat) (q : Queue) : Option Queue :=
  match queueLoop m (q.vars + 1) none none { q with stamp := 0 } with
  | none => none
  | some (r, p, prev) =>
    let r := setPlace { r with last := prev } p none
    some { r with
      vars := vars
      prev := copyUp m q.vars r.prev
      next := copyUp m q.vars r.next
      stampOf := copyUp m q.vars r.stampOf }

/-- Body of the first loop of `compact_scores` (compact.c:186-191). -/
def copyScore {α : Type} [LinearOrder α] (zero : α) (m : Nat → Option Nat) (old h : Heap α) (idx : Nat) :
    Option (Heap α) :=
  match m idx with
  | none => some h
  | some midx => h.update zero midx (old.getScore zero idx)

/-- Body of the second loop of `compact_scores` (compact.c:197-201). -/
def pushMapped {α : Type} [LinearOrder α] (zero : α) (m : Nat → Option Nat) (h : Heap α) (idx : Nat) :
    Option (Heap α) :=
  match m idx with
  | none => some h
  | some midx => h.push zero midx

/-- `compact_scores` (compact.c:176-206); `none` is an invalid access.  `junkScore`, `junkPos`
and `junkStack` are the contents of uninitialized memory. -/
def compactScores {α : Type} [LinearOrder α] (zero : α) (junkScore : Nat → α)
    (junkPos : Nat → Option Nat) (junkStack : Nat → Nat) (m : Nat → Option Nat) (vars newVars : Nat)
    (old : Heap α) : Option (Heap α) :=
  let new := (Heap.init junkScore junkPos junkStack).resize zero junkScore junkPos newVars
  let copied := if old.tainted then
      (List.range vars).foldlM (copyScore zero m old) new
    else some new
  copied.bind fun h => ((List.range old.count).map old.stack).foldlM (pushMapped zero m) h

/-- The literals of a list, `none` if one is not mapped (`compact_frames`,
compact.c:228-238). -/
def mapAll (map : Nat → Option Nat) : List Nat → Option (List Nat)
  | [] => some []
  | l :: ls =>
    match map l, mapAll map ls with
    | some m, some ms => some (m :: ms)
    | _, _ => none

/-- Entries from `n` on are cleared (compact.c:359-362). -/
def clearFrom {α : Type} (n : Nat) (zero : α) (f : Nat → α) : Nat → α :=
  fun i => if i < n then f i else zero

/-- The table of imports after `compact_units`, which is called if there is a fixed literal
(compact.c:356-357). -/
def finalImports (t : Tables) (r : Renumber) : Nat → Import :=
  match r.mfixed with
  | none => r.imports
  | some mfixed => compactUnits mfixed t.units r.imports

/-- `kissat_finalize_compacting` (compact.c:320-376) without the scores. -/
def finalize (t : Tables) (r : Renumber) : Option Tables :=
  if r.vars = t.vars then some { t with imports := r.imports, exports := r.exports }
  else
    let exports := clearExports t r
    let map := mapLiteral r.imports exports
    match compactTrail map t.trail t.assigned with
    | none => none
    | some (trail, assigned) =>
      let move {α : Type} (f : Nat → α) : Nat → α := copyUp (fun v => (map (2 * v)).map (· / 2)) t.vars f
      let imports := finalImports t r
      let m := mapIdx imports exports
      match compactQueue m r.vars t.queue, mapAll (mapLiteral imports exports) t.frames with
      | some queue, some frames =>
        let flags := clearFrom r.vars ⟨false, false, false⟩ (move t.flags)
        let best := move t.best
        let target := move t.target
        some { t with
          vars := r.vars
          imports := imports
          exports := copyUp m t.vars exports
          flags := flags
          values := clearFrom (2 * r.vars) 0 (copyValues map t.vars t.values)
          assigned := clearFrom r.vars ⟨0, 0, false, 0⟩ (move assigned)
          best := best
          saved := move t.saved
          target := target
          bestAssigned := ((List.range r.vars).filter fun v => (flags v).active && best v ≠ 0).length
          targetAssigned := ((List.range r.vars).filter fun v => (flags v).active && target v ≠ 0).length
          queue := queue
          sweep := t.sweep.filterMap m
          trail := trail
          frames := frames
          bins := clearFrom (2 * r.vars) [] t.bins }
      | _, _ => none

/-- `kissat_sparse_collect` (collect.c:608-631) with `compact` set. -/
def sparseCollect (t : Tables) : Option Tables :=
  let r := compactLiterals t
  let map := mapLiteral r.imports r.exports
  match sweepClauses t map t.clauses (flushAll t map) with
  | none => none
  | some (clauses, bins) => finalize { t with bins := bins, clauses := clauses } r

/-! ## Other operations on the tables -/

/-- No variable (internal.c `kissat_init`). -/
def Tables.empty : Tables where
  vars := 0
  size := 0
  imports := fun _ => ⟨0, false, false⟩
  exports := fun _ => 0
  units := []
  eliminated := fun _ => 0
  flags := fun _ => ⟨false, false, false⟩
  values := fun _ => 0
  assigned := fun _ => ⟨0, 0, false, 0⟩
  best := fun _ => 0
  saved := fun _ => 0
  target := fun _ => 0
  bestAssigned := 0
  targetAssigned := 0
  queue := Queue.init 0 (fun _ => none) (fun _ => none) (fun _ => 0)
  sweep := []
  trail := []
  frames := []
  bins := fun _ => []
  clauses := []

/-- `import_literal` (import.c:39-57) for an external variable `e` which is neither imported
nor eliminated: `adjust_imports_for_external_literal` (import.c:5-15) and
`adjust_exports_for_external_literal` (import.c:17-37).  New parts of arrays are zero
(resize.c). -/
def Tables.importVar (t : Tables) (e : Nat) : Tables :=
  { t with
    vars := t.vars + 1
    size := max t.size (e + 1)
    imports := fun i =>
      if i = e then ⟨2 * t.vars, true, false⟩
      else if i < t.size then t.imports i
      else ⟨0, false, false⟩
    exports := upd t.exports t.vars e
    flags := upd t.flags t.vars ⟨false, false, false⟩
    values := fun l => if l / 2 = t.vars then 0 else t.values l
    assigned := upd t.assigned t.vars ⟨0, 0, false, 0⟩ }

/-- `activate_literal` (flags.c:5-34), the flag only. -/
def Tables.activate (t : Tables) (v : Nat) : Tables :=
  { t with flags := upd t.flags v { t.flags v with active := true } }

/-- `kissat_assign` (inlineassign.h:8-71) of `lit`, the value and the level. -/
def Tables.assign (t : Tables) (lit level : Nat) : Tables :=
  { t with
    values := upd (upd t.values lit 1) (neg lit) (-1)
    assigned := upd t.assigned (lit / 2) { t.assigned (lit / 2) with level := level } }

/-- Taking back an assignment (backtrack.c:11-18), the value only. -/
def Tables.unassign (t : Tables) (lit : Nat) : Tables :=
  { t with values := upd (upd t.values lit 0) (neg lit) 0 }

/-- `kissat_assign` on level zero with `kissat_mark_fixed_literal` (flags.c:60-75). -/
def Tables.fix (t : Tables) (lit : Nat) : Tables :=
  { t.assign lit 0 with
    flags := upd t.flags (lit / 2) ⟨false, (t.flags (lit / 2)).eliminated, true⟩
    units := t.units ++ [exportLiteral t.exports lit] }

/-- `kissat_mark_eliminated_variable` (flags.c:77-106); `pos` is the size of the stack
`eliminated`. -/
def Tables.eliminate (t : Tables) (v pos : Nat) : Tables :=
  let eidx := (t.exports v).natAbs
  { t with
    flags := upd t.flags v ⟨false, true, (t.flags v).fixed⟩
    imports := upd t.imports eidx { t.imports eidx with lit := pos, eliminated := true }
    eliminated := upd t.eliminated pos 0 }

end Verif.Compact
