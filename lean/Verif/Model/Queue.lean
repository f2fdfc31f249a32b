import Verif.Model.Core.State

/-!
# The variable move-to-front queue: `queue.h`, `queue.c`, `inlinequeue.h`
-/

namespace Verif.Model.Queue

open Verif.Core (upd)

/-- `struct queue` (queue.h:17-22) and the array of `struct links` (queue.h:12-15).
`none` is `DISCONNECT`.  `vars` is the size of the array. -/
structure Queue where
  vars : Nat
  first : Option Nat
  last : Option Nat
  stamp : Nat
  search : Option Nat
  searchStamp : Nat
  prev : Nat → Option Nat
  next : Nat → Option Nat
  stampOf : Nat → Nat

/-- `kissat_init_queue` (queue.c:5-11); the contents of the links are irrelevant. -/
def Queue.init (vars : Nat) (prev next : Nat → Option Nat) (stampOf : Nat → Nat) : Queue :=
  ⟨vars, none, none, 0, none, 0, prev, next, stampOf⟩

/-- `kissat_update_queue` (inlinequeue.h:7-14). -/
def Queue.update (q : Queue) (idx : Nat) : Queue :=
  { q with search := some idx, searchStamp := q.stampOf idx }

/-- `kissat_reset_search_of_queue` (queue.c:13-20); `none` is an invalid access. -/
def Queue.resetSearch (q : Queue) : Option Queue := q.last.map q.update

/-- The loop of `kissat_reassign_queue_stamps` (queue.c:29-31).  The first argument bounds
the number of iterations. -/
def reassignLoop (next : Nat → Option Nat) :
    Nat → Option Nat → (Nat → Nat) × Nat → (Nat → Nat) × Nat
  | _, none, r => r
  | 0, some _, r => r
  | n + 1, some idx, (stampOf, stamp) =>
    reassignLoop next n (next idx) (upd stampOf idx (stamp + 1), stamp + 1)

/-- `kissat_reassign_queue_stamps` (queue.c:22-35). -/
def Queue.reassign (q : Queue) : Queue :=
  match reassignLoop q.next q.vars q.first (q.stampOf, 0) with
  | (stampOf, stamp) =>
    let q := { q with stampOf := stampOf, stamp := stamp }
    match q.search with
    | none => q
    | some s => { q with searchStamp := q.stampOf s }

/-- `kissat_enqueue_links` (inlinequeue.h:16-35). -/
def Queue.enqueueLinks (q : Queue) (i : Nat) : Queue :=
  let j := q.last
  let q := { q with prev := upd q.prev i j, last := some i }
  let q := match j with
    | none => { q with first := some i }
    | some j => { q with next := upd q.next j (some i) }
  if q.stamp = 2 ^ 32 - 1 then q.reassign
  else { q with stampOf := upd q.stampOf i (q.stamp + 1), stamp := q.stamp + 1 }

/-- `kissat_dequeue_links` (inlinequeue.h:37-58). -/
def Queue.dequeueLinks (q : Queue) (i : Nat) : Queue :=
  let j := q.prev i
  let k := q.next i
  let q := { q with prev := upd q.prev i none, next := upd q.next i none }
  let q := match j with
    | none => { q with first := k }
    | some j => { q with next := upd q.next j k }
  match k with
  | none => { q with last := j }
  | some k => { q with prev := upd q.prev k j }

/-- `kissat_enqueue` (inlinequeue.h:60-69); `assigned` says that the variable has a
value. -/
def Queue.enqueue (q : Queue) (assigned : Nat → Bool) (idx : Nat) : Queue :=
  let q := { q with prev := upd q.prev idx none, next := upd q.next idx none }
  let q := q.enqueueLinks idx
  if assigned idx then q else q.update idx

/-- `kissat_dequeue` (inlinequeue.h:71-88). -/
def Queue.dequeue (q : Queue) (idx : Nat) : Queue :=
  let q :=
    if q.search = some idx then
      let search := match q.next idx with
        | none => q.prev idx
        | some n => some n
      match search with
      | none => { q with search := none, searchStamp := 0 }
      | some s => q.update s
    else q
  q.dequeueLinks idx

/-- `kissat_move_to_front` (inlinequeue.h:90-115); `none` is an invalid access. -/
def Queue.moveToFront (q : Queue) (assigned : Nat → Bool) (idx : Nat) : Option Queue :=
  if q.last = some idx then some q
  else
    let r : Option Queue :=
      if assigned idx ∧ q.search = some idx then
        match q.prev idx with
        | some p => some (q.update p)
        | none => (q.next idx).map q.update
      else some q
    r.map fun q =>
      let q := (q.dequeueLinks idx).enqueueLinks idx
      if assigned idx then q else q.update idx

/-- `add_unassigned_variable_back_to_queue` (backtrack.c:20-27). -/
def Queue.unassign (q : Queue) (idx : Nat) : Queue :=
  if q.searchStamp < q.stampOf idx then q.update idx else q

/-- The loop of `last_enqueued_unassigned_variable` (decide.c:14-18); `none` is an invalid
access.  The first argument bounds the number of iterations. -/
def searchBack (prev : Nat → Option Nat) (assigned : Nat → Bool) : Nat → Nat → Option Nat
  | 0, _ => none
  | n + 1, res =>
    if assigned res then
      match prev res with
      | none => none
      | some p => searchBack prev assigned n p
    else some res

/-- `last_enqueued_unassigned_variable` (decide.c:9-30). -/
def Queue.lastUnassigned (q : Queue) (assigned : Nat → Bool) : Option (Nat × Queue) :=
  match q.search with
  | none => none
  | some s =>
    if assigned s then
      (searchBack q.prev assigned (q.vars + 1) s).map fun r => (r, q.update r)
    else some (s, q)

/-- The first loop of `adjust_scores_and_phases_of_fresh_varaibles` (factor.c:861-865),
over the fresh variables from last to first. -/
def dequeueAll (q : Queue) : List Nat → Queue
  | [] => q
  | idx :: l => dequeueAll (q.dequeueLinks idx) l

/-- The body of the second loop there (factor.c:869-884): `idx` becomes the first
element. -/
def Queue.prepend (q : Queue) (idx : Nat) : Queue :=
  let q := match q.first with
    | none => { q with last := some idx }
    | some first => { q with prev := upd q.prev first (some idx) }
  { q with
    next := upd q.next idx q.first
    first := some idx
    stampOf := upd q.stampOf idx (q.stamp + 1)
    stamp := q.stamp + 1 }

/-- The second loop there, over the fresh variables from last to first. -/
def prependAll (q : Queue) : List Nat → Queue
  | [] => q
  | idx :: l => prependAll (q.prepend idx) l

/-- `adjust_scores_and_phases_of_fresh_varaibles` (factor.c:857-892), the part concerning the
queue. -/
def Queue.addFresh (q : Queue) (fresh : List Nat) : Queue :=
  let q := dequeueAll q fresh.reverse
  let q := { q with stamp := 0 }
  let rest := q.first
  let q := prependAll q fresh.reverse
  match reassignLoop q.next q.vars rest (q.stampOf, q.stamp) with
  | (stampOf, stamp) =>
    { q with stampOf := stampOf, stamp := stamp, search := q.last, searchStamp := stamp }

/-- The variables found by following `next` from `first`, as in the loop of queue.c:29-31. -/
def follow (next : Nat → Option Nat) : Nat → Option Nat → List Nat
  | _, none => []
  | 0, some _ => []
  | n + 1, some v => v :: follow next n (next v)

/-- The queue from first to last. -/
def Queue.forward (q : Queue) : List Nat := follow q.next q.vars q.first

/-- The queue from last to first. -/
def Queue.backward (q : Queue) : List Nat := follow q.prev q.vars q.last

end Verif.Model.Queue
