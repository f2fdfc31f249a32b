import Verif.Proofs.Whole.Control
import Verif.Proofs.Examples
import Verif.Model.WholeReach
import Verif.Props.Simplify
import Verif.Props.Parse

/-!
# Answers of the whole solver (C01 to C06)

`Solve o preprocess a rs w res` (`Model/Whole.lean`): `kissat_solve`, called in the state `a`, returns `res` and leaves the
solver in the state `w`.  It includes lucky phases, preprocessing, and inprocessing at any points of the search.
-/

namespace Verif.Props

open Verif.Spec Verif.Core Verif.Whole

/-- The clauses as `kissat_solve` finds them. -/
theorem whole_clauses {options : Core.Options} {tumble : Bool} {p q : Nat} {calls : List Call} {a : Api}
    (hrun : Core.Run (Api.init options tumble p q) calls a) (h0 : a.searches = 0) :
    ∃ orig, ApiInv orig a ∧
      orig.map (List.map (Whole.State.ofApi a).tables.ext) = (clausesOf (addedInts calls)).map fun c => c.map code := by
  obtain ⟨orig, h1, h2⟩ := hrun.clauses h0
  refine ⟨orig, h1, ?_⟩
  rw [← h2, ofApi_ext, List.map_map]
  apply List.map_congr_left
  intro c _
  simp [List.map_map, Function.comp_def]

theorem whole_nonzero {calls : List Call} : ∀ c ∈ clausesOf (addedInts calls), ∀ e ∈ c, e ≠ 0 :=
  fun c hc e he => ((mem_clausesOf _).1 c hc e he).2

theorem whole_searches {o : LuckyOptions} {pre : Bool} {a : Api} {rs : List Bool} {w : Whole.State} {res : Nat}
    (h : Solve o pre a rs w res) : a.searches = 0 := by
  cases h <;> assumption

/-- C01: after the answer 10 there is one function `f` which answers all queries with `kissat_value`, in any order.
It gives each literal, its negation or zero, and the same for the negation.  Every assignment which agrees with these
answers satisfies all clauses added, and there is such an assignment. -/
theorem C01_model {options : Core.Options} {tumble : Bool} {p q : Nat} {calls : List Call} {a : Api} {o : LuckyOptions}
    {pre : Bool} {rs : List Bool} {w : Whole.State} (hrun : Core.Run (Api.init options tumble p q) calls a)
    (hsolve : Solve o pre a rs w 10) :
    ∃ f : Int → Int, (∀ queries, w.answers queries = some (queries.map f)) ∧
      (∀ e, (f e = e ∨ f e = - e ∨ f e = 0) ∧ f (- e) = f e) ∧
      (∀ σ : Nat → Bool, (∀ e, f e ≠ 0 → ElitTrue σ (f e)) → ∀ c ∈ clausesOf (addedInts calls), ESat σ c) ∧
      ∃ σ : Nat → Bool, ∀ e, f e ≠ 0 → ElitTrue σ (f e) := by
  obtain ⟨orig, h1, h2⟩ := whole_clauses hrun (whole_searches hsolve)
  have h3 := solve_answered h1 hsolve
  rw [h2] at h3
  have h3 : Found ((clausesOf (addedInts calls)).map fun c => c.map code) w := by
    rcases h3 with ⟨_, h⟩ | ⟨h, _⟩ | ⟨h, _⟩
    · exact h
    · cases h
    · cases h
  obtain ⟨f, f1, f2, f3⟩ := h3.answers
  refine ⟨f, f1, f2, fun σ hσ c hc => ?_, fun v => decide (f v = v), fun e he => ?_⟩
  · refine (esat_iff (whole_nonzero c hc)).1 (f3 σ (fun v hv => ?_) _ (List.mem_map_of_mem hc))
    have := hσ v hv
    unfold ElitTrue at this
    rcases (f2 v).1 with h | h | h
    · rw [h] at this ⊢
      rw [h] at hv
      rw [Int.natAbs_natCast] at this
      rw [this]
      simp only [decide_true, decide_eq_true_eq]; omega
    · rw [h] at this ⊢
      rw [h] at hv
      rw [Int.natAbs_neg, Int.natAbs_natCast] at this
      rw [this, decide_eq_decide]
      omega
    · exact absurd h hv
  · unfold ElitTrue
    have h1 : f (e.natAbs : Nat) = f e := by
      rcases Int.natAbs_eq e with h | h
      · rw [← h]
      · conv => rhs; rw [h]
        exact (f2 _).2.symm
    have h2 : (f e).natAbs = e.natAbs := by
      rcases (f2 e).1 with h | h | h
      · rw [h]
      · rw [h, Int.natAbs_neg]
      · exact absurd h he
    rw [h2]
    show decide (f (e.natAbs : Nat) = (e.natAbs : Nat)) = _
    rw [h1, decide_eq_decide]
    omega

/-- C02: after the answer 20 the clauses added have no model. -/
theorem C02_unsatisfiable {options : Core.Options} {tumble : Bool} {p q : Nat} {calls : List Call} {a : Api}
    {o : LuckyOptions} {pre : Bool} {rs : List Bool} {w : Whole.State}
    (hrun : Core.Run (Api.init options tumble p q) calls a) (hsolve : Solve o pre a rs w 20) :
    ¬ ESatisfiable (clausesOf (addedInts calls)) := by
  obtain ⟨orig, h1, h2⟩ := whole_clauses hrun (whole_searches hsolve)
  have h3 := solve_answered h1 hsolve
  rw [h2] at h3
  rcases h3 with ⟨h, _⟩ | ⟨_, D, h3, h4⟩ | ⟨h, _⟩
  · cases h
  · rw [← esatisfiable_iff whole_nonzero]
    exact h3.refutes h4
  · cases h

/-- C03: whatever the answer is, the lines written to the proof, starting with those written while the clauses were
added, are accepted by a DRAT checker which is given the clauses added; after the answer 20 it holds the empty clause. -/
theorem C03_whole_proof {options : Core.Options} {tumble : Bool} {p q : Nat} {calls : List Call} {a : Api}
    {o : LuckyOptions} {pre : Bool} {rs : List Bool} {w : Whole.State} {res : Nat}
    (hrun : Core.Run (Api.init options tumble p q) calls a) (hsolve : Solve o pre a rs w res) :
    ∃ db, Replay ((clausesOf (addedInts calls)).map fun c => c.map code) w.proof db ∧ (res = 20 → [] ∈ db) := by
  obtain ⟨orig, h1, h2⟩ := whole_clauses hrun (whole_searches hsolve)
  have h3 := solve_answered h1 hsolve
  rw [h2] at h3
  rcases h3 with ⟨rfl, h⟩ | ⟨rfl, D, h3, h4⟩ | ⟨rfl, h⟩
  · obtain ⟨D, h⟩ := h.accepted
    exact ⟨D, h, fun h => (by cases h)⟩
  · exact ⟨D, h3, fun _ => h4⟩
  · obtain ⟨D, h⟩ := h.accepted
    exact ⟨D, h, fun h => (by cases h)⟩

/-- C04: only 0, 10 and 20 are returned; 0 is returned only if `kissat_terminate` was called before or during the
call, or a conflict limit or decision limit was set and is reached. -/
theorem C04_whole_results {options : Core.Options} {tumble : Bool} {p q : Nat} {calls : List Call} {a : Api}
    {o : LuckyOptions} {pre : Bool} {rs : List Bool} {w : Whole.State} {res : Nat}
    (hrun : Core.Run (Api.init options tumble p q) calls a) (hsolve : Solve o pre a rs w res) :
    res = 10 ∨ res = 20 ∨ (res = 0 ∧
      (Call.terminate ∈ calls ∨ true ∈ rs ∨
       (∃ n, Call.setConflictLimit n ∈ calls ∧ n ≤ w.t.s.conflicts) ∨
       (∃ n, Call.setDecisionLimit n ∈ calls ∧ n ≤ w.t.s.decisions))) := by
  obtain ⟨orig, h1, h2⟩ := whole_clauses hrun (whole_searches hsolve)
  have h3 := solve_answered h1 hsolve
  have hlim : ∀ {x : Option Nat} {n : Nat}, limitHit x n = true → ∃ L, x = some L ∧ L ≤ n := by
    intro x n h
    unfold limitHit at h
    cases x with
    | none => cases h
    | some L => exact ⟨L, rfl, by simpa using h⟩
  obtain ⟨c1, c2, c3⟩ := run_control hrun
  rcases h3 with ⟨h, _⟩ | ⟨h, _⟩ | ⟨rfl, _⟩
  · exact .inl h
  · exact .inr (.inl h)
  · refine .inr (.inr ⟨rfl, ?_⟩)
    rcases solve_unknown h1 hsolve with h | h | h | h
    · exact .inl (c1 h)
    · exact .inr (.inl h)
    · obtain ⟨L, e1, e2⟩ := hlim h
      obtain ⟨n, h1, h2⟩ := c2 L e1
      exact .inr (.inr (.inl ⟨n, h1, by omega⟩))
    · obtain ⟨L, e1, e2⟩ := hlim h
      obtain ⟨n, h1, h2⟩ := c3 L e1
      exact .inr (.inr (.inr ⟨n, h1, by omega⟩))

/-- C04: `kissat_solve` reaches the loop or an answer, and in the loop every choice of the heuristics which considers exactly
the active variables leads to a next state or an answer, unless garbage was collected on a positive decision level and
local search is used. -/
theorem C04_progress {options : Core.Options} {tumble : Bool} {p q : Nat} {calls : List Call} {a : Api}
    {o : LuckyOptions} {pre : Bool} {w : Whole.State} (hrun : Core.Run (Api.init options tumble p q) calls a)
    (hs : Searching o pre a w) (c : Oracle) (hc : ∀ v, v ∈ c.order ↔ v < w.t.s.vars ∧ w.t.s.removed v = false)
    (hl : w.t.s.loose = false ∨ c.localSearch = false) : ∃ w' r, Step w c.request w' r := by
  have h0 : ∀ {w}, Searching o pre a w → a.searches = 0 := by
    intro w h
    induction h with
    | start _ h _ => exact h
    | next _ _ ih => exact ih
  obtain ⟨orig, h1, _⟩ := whole_clauses hrun (h0 hs)
  exact step_total (searching_running h1 hs) c hl hc

/-- C04: the part of `kissat_solve` before the loop ends. -/
theorem C04_start {options : Core.Options} {tumble : Bool} {p q : Nat} {calls : List Call} {a : Api}
    (hrun : Core.Run (Api.init options tumble p q) calls a) (h0 : a.searches = 0) (o : LuckyOptions) (pre : Bool) :
    ∃ w res, Before o pre a w res := by
  obtain ⟨orig, h1, _⟩ := whole_clauses hrun h0
  exact before_total h1 o pre

/-- C01 and C02 from the file to the answer: after parsing a legal file, 10 means that all assignments which agree with the
values satisfy its clauses, 20 that they are unsatisfiable. -/
theorem C01_C02_file {m : Spec.Dimacs.Mode} {text : List Nat} {n q : Nat} {ls : List Int} (_h : Spec.Dimacs.Legal m text n q ls)
    {options : Core.Options} {tumble : Bool} {i j : Nat} {a : Api} {o : LuckyOptions} {pre : Bool} {rs : List Bool}
    {w : Whole.State} {res : Nat} (hrun : Core.Run (Api.init options tumble i j) (loads n ls) a)
    (hsolve : Solve o pre a rs w res) :
    (res = 10 → ∃ f : Int → Int, (∀ queries, w.answers queries = some (queries.map f)) ∧
      ∀ σ : Nat → Bool, (∀ e, f e ≠ 0 → ElitTrue σ (f e)) → ∀ c ∈ clausesOf ls, ESat σ c) ∧
    (res = 20 → ¬ ESatisfiable (clausesOf ls)) := by
  have e := addedInts_loads n ls
  constructor
  · rintro rfl
    obtain ⟨f, h1, _, h2, _⟩ := C01_model hrun hsolve
    rw [e] at h2
    exact ⟨f, h1, h2⟩
  · rintro rfl
    have := C02_unsatisfiable hrun hsolve
    rwa [e] at this

/-! ## Instances -/

/-- Something the search loop does: an ordinary iteration deciding the first variable without value with the
given phase, or inprocessing by bounded variable elimination with the given schedule. -/
inductive Act
  | search (phase : Bool)
  | eliminate (sched : List Nat)

/-- The active variables. -/
def activeVars (w : Whole.State) : List Nat := (List.range w.t.s.vars).filter fun v => !w.t.s.removed v

/-- The iteration. -/
def actSearch (w : Whole.State) (o : Oracle) : Option (Whole.State × Bool × Option Nat) :=
  match iteration o w.t with
  | .next t => some ({ w with t := t }, o.request, none)
  | .done t res => some ({ w with t := t }, o.request, some res)
  | .stuck => none

/-- Simplification with the given result. -/
def actSimplify (w : Whole.State) (x : Simp.State) : Whole.State × Nat :=
  if x.inconsistent then (w.refuted x, 20)
  else ((w.resume false x).1, if (w.resume false x).2.isSome then 20 else 0)

/-- Inprocessing. -/
def actEliminate (w : Whole.State) (sched : List Nat) : Option (Whole.State × Bool × Option Nat) :=
  match searchPropagate w.t.s with
  | (_, some _) => none
  | (s, none) =>
    if s.iterating = false ∧ s.unassigned ≠ 0 ∧ w.t.flagged = false ∧ s.rootConflict = false then
      match actSimplify { w with t := { w.t with s := s.flushToRoot } }
        ((Whole.State.toSimp { w with t := { w.t with s := s.flushToRoot } }).eliminateLoop (sched.map fun v => (plain, v))) with
      | (w', res) => some (w', false, if res = 0 then none else some res)
    else none

def actStep (w : Whole.State) : Act → Option (Whole.State × Bool × Option Nat)
  | .search phase => actSearch w (exDecide (activeVars w) phase)
  | .eliminate sched => actEliminate w sched

theorem actSimplify_sound {w w' : Whole.State} {x : Simp.State} {res : Nat} (hx : Simp.Reach (· = w.toSimp) x)
    (h : actSimplify w x = (w', res)) : Simplify w w' res := by
  unfold actSimplify at h
  cases hi : x.inconsistent with
  | true =>
    rw [hi, if_pos rfl] at h
    simp only [Prod.mk.injEq] at h
    obtain ⟨rfl, rfl⟩ := h
    exact .unsat hx hi
  | false =>
    rw [hi, if_neg (by simp)] at h
    rcases hr : w.resume false x with ⟨v, _ | c⟩ <;> rw [hr] at h <;>
      simp only [Option.isSome_none, Option.isSome_some, Bool.false_eq_true, if_false, if_true, Prod.mk.injEq] at h <;>
      obtain ⟨rfl, rfl⟩ := h
    · exact .done hx hi hr
    · exact .conflict hx hi hr

theorem actSearch_sound {w w' : Whole.State} {o : Oracle} {r : Bool} {res : Option Nat}
    (ho : ∀ v, v ∈ o.order ↔ v < w.t.s.vars ∧ w.t.s.removed v = false) (h : actSearch w o = some (w', r, res)) :
    Step w r w' res := by
  unfold actSearch at h
  cases hit : iteration o w.t with
  | next t =>
    rw [hit] at h
    simp only [Option.some.injEq, Prod.mk.injEq] at h
    obtain ⟨rfl, rfl, rfl⟩ := h
    exact .next ho hit
  | done t res =>
    rw [hit] at h
    simp only [Option.some.injEq, Prod.mk.injEq] at h
    obtain ⟨rfl, rfl, rfl⟩ := h
    exact .done ho hit
  | stuck => rw [hit] at h; cases h

theorem actEliminate_sound {w w' : Whole.State} {sched : List Nat} {r : Bool} {res : Option Nat}
    (h : actEliminate w sched = some (w', r, res)) : Step w r w' res := by
  unfold actEliminate at h
  rcases hp : searchPropagate w.t.s with ⟨s, _ | c⟩
  · rw [hp] at h
    dsimp only at h
    split at h
    · rename_i hc
      obtain ⟨c1, c2, c3, c4⟩ := hc
      simp only [Option.some.injEq, Prod.mk.injEq] at h
      obtain ⟨rfl, rfl, rfl⟩ := h
      refine .inprocess hp c1 c2 c3 c4 (actSimplify_sound ?_ rfl)
      refine .eliminate _ (.start rfl) fun e he => ?_
      obtain ⟨v, _, rfl⟩ := List.mem_map.1 he
      exact plain_sound
    · cases h
  · rw [hp] at h; cases h

theorem actStep_sound {w w' : Whole.State} {x : Act} {r : Bool} {res : Option Nat} (h : actStep w x = some (w', r, res)) :
    Step w r w' res := by
  cases x with
  | search phase =>
    refine actSearch_sound (fun v => ?_) h
    show v ∈ activeVars w ↔ _
    unfold activeVars
    simp
  | eliminate sched => exact actEliminate_sound h

/-- The loop with the given actions: the final state, the entries for termination requests and the answer. -/
def actLoop : List Act → Whole.State → Option (Whole.State × List Bool × Nat)
  | [], _ => none
  | x :: xs, w =>
    match actStep w x with
    | none => none
    | some (w', r, some res) => some (w', [r], res)
    | some (w', r, none) =>
      match actLoop xs w' with
      | none => none
      | some (w'', rs, res) => some (w'', r :: rs, res)

theorem actLoop_sound : ∀ {xs : List Act} {w w' : Whole.State} {rs : List Bool} {res : Nat},
    actLoop xs w = some (w', rs, res) → Loop w rs w' res
  | [], _, _, _, _, h => by cases h
  | x :: xs, w, w', rs, res, h => by
    unfold actLoop at h
    split at h
    · cases h
    · rename_i w1 r res1 hs
      simp only [Option.some.injEq, Prod.mk.injEq] at h
      obtain ⟨rfl, rfl, rfl⟩ := h
      exact .done (actStep_sound hs)
    · rename_i w1 r hs
      split at h
      · cases h
      · rename_i w2 rs2 res2 hl
        simp only [Option.some.injEq, Prod.mk.injEq] at h
        obtain ⟨rfl, rfl, rfl⟩ := h
        exact .next (actStep_sound hs) (actLoop_sound hl)

/-- No lucky phases and no preprocessing, then the given actions. -/
def actSolve (es : List Int) (xs : List Act) : Option (Whole.State × Nat) :=
  match exAdd es exInit with
  | none => none
  | some a =>
    if a.s.inconsistent = false ∧ a.clause = [] ∧ a.searches = 0 ∧ a.searching = true then
      match actLoop xs (.ofApi a) with
      | none => none
      | some (w, _, res) => some (w.stop, res)
    else none

theorem actSolve_sound {es : List Int} {xs : List Act} {w : Whole.State} {res : Nat} (h : actSolve es xs = some (w, res)) :
    ∃ a rs, Core.Run (Api.init exOptions true 100 500) (es.map Call.add) a ∧ Solve ⟨false, false, false⟩ false a rs w res := by
  unfold actSolve at h
  split at h
  · cases h
  · rename_i a ha
    split at h
    · rename_i hc
      obtain ⟨c1, c2, c3, c4⟩ := hc
      split at h
      · cases h
      · rename_i w1 rs res1 hl
        simp only [Option.some.injEq, Prod.mk.injEq] at h
        obtain ⟨rfl, rfl⟩ := h
        refine ⟨a, rs, by have := exAdd_run (a0 := exInit) es .nil ha; rwa [List.nil_append] at this, ?_⟩
        exact .search c2 c3 (.late c1 rfl (by rw [if_neg (by simp)]) rfl) c4 (actLoop_sound hl)
    · cases h

/-- The clauses `andCnf`; x₁ and x₄ are eliminated before the first decision. -/
def eliminatedSat : Option (Whole.State × Nat) := actSolve (andCnf.flatMap (· ++ [0]))
  [.eliminate [0, 3], .search false, .search false, .search false, .search false]

theorem eliminatedSat_eq : (eliminatedSat.map fun p => (p.2, p.1.answers [1, 2, 3, 4, 5, -1], p.1.proof.length)) =
    some (10, some [-1, -2, -3, 4, -5, -1], 13) := by decide +kernel

/-- All eight clauses over x₁, x₂ and x₆, and three clauses over other variables two of which are eliminated after the
first decision. -/
def eliminatedUnsat : Option (Whole.State × Nat) := actSolve [1, 2, 6, 0, 1, 2, -6, 0, 1, -2, 6, 0, 1, -2, -6, 0, -1, 2, 6, 0,
    -1, 2, -6, 0, -1, -2, 6, 0, -1, -2, -6, 0, 3, 4, 5, 0, -3, 4, 5, 0, -3, -4, 7, 0]
  [.search true, .eliminate [2, 3], .search true, .search true, .search true, .search true, .search true]

theorem eliminatedUnsat_eq : (eliminatedUnsat.map fun p => (p.2, p.1.proof.length)) = some (20, 19) := by decide +kernel

/-- The hypotheses of C01, with inprocessing which eliminates variables. -/
example : ∃ a rs w, Core.Run (Api.init exOptions true 100 500) ((andCnf.flatMap (· ++ [0])).map Call.add) a ∧
    Solve ⟨false, false, false⟩ false a rs w 10 ∧ w.answers [1, 2, 3, 4, 5, -1] = some [-1, -2, -3, 4, -5, -1] ∧
    clausesOf (addedInts ((andCnf.flatMap (· ++ [0])).map Call.add)) = andCnf := by
  have h := eliminatedSat_eq
  cases he : eliminatedSat with
  | none => rw [he] at h; cases h
  | some p =>
    rw [he] at h
    simp only [Option.map_some, Option.some.injEq, Prod.mk.injEq] at h
    obtain ⟨w, res⟩ := p
    obtain ⟨h1, h2, _⟩ := h
    obtain ⟨a, rs, g1, g2⟩ := actSolve_sound he
    dsimp only at h1
    subst h1
    exact ⟨a, rs, w, g1, g2, h2, by decide⟩

/-- The hypotheses of C02. -/
example : ∃ calls a rs w, Core.Run (Api.init exOptions true 100 500) calls a ∧ Solve ⟨false, false, false⟩ false a rs w 20 ∧
    w.proof.length = 19 := by
  have h := eliminatedUnsat_eq
  cases he : eliminatedUnsat with
  | none => rw [he] at h; cases h
  | some p =>
    rw [he] at h
    simp only [Option.map_some, Option.some.injEq, Prod.mk.injEq] at h
    obtain ⟨w, res⟩ := p
    obtain ⟨h1, h2⟩ := h
    obtain ⟨a, rs, g1, g2⟩ := actSolve_sound he
    dsimp only at h1
    subst h1
    exact ⟨_, a, rs, w, g1, g2, h2⟩

/-- The state of the search loop after the given actions. -/
def actStates : List Act → Whole.State → Option Whole.State
  | [], w => some w
  | x :: xs, w =>
    match actStep w x with
    | some (w', _, none) => actStates xs w'
    | _ => none

theorem actStates_sound {o : LuckyOptions} {pre : Bool} {a : Api} : ∀ {xs : List Act} {w w' : Whole.State},
    Searching o pre a w → actStates xs w = some w' → Searching o pre a w'
  | [], _, _, hs, h => by cases h; exact hs
  | x :: xs, w, w', hs, h => by
    unfold actStates at h
    split at h
    · rename_i hx
      exact actStates_sound (.next hs (actStep_sound hx)) h
    · cases h

def actReach (es : List Int) (xs : List Act) : Option Whole.State :=
  match exAdd es exInit with
  | none => none
  | some a => if a.s.inconsistent = false ∧ a.clause = [] ∧ a.searches = 0 then actStates xs (.ofApi a) else none

theorem actReach_sound {es : List Int} {xs : List Act} {P : Whole.State → Bool} (h : (actReach es xs).map P = some true) :
    ∃ w, Reachable w.t ∧ P w = true := by
  cases hr : actReach es xs with
  | none => rw [hr] at h; cases h
  | some w =>
    rw [hr] at h
    refine ⟨w, ?_, by simpa using h⟩
    unfold actReach at hr
    split at hr
    · cases hr
    · rename_i a ha
      split at hr
      · rename_i hc
        obtain ⟨c1, c2, c3⟩ := hc
        refine .whole (exAdd_run (a0 := exInit) es .nil ha) (o := ⟨false, false, false⟩) (preprocess := false)
          (actStates_sound (.start c2 c3 (.late c1 rfl (by rw [if_neg (by simp)]) rfl)) hr)
      · cases hr

/-- The hypotheses of C35 to C38 and C59 after inprocessing: a reachable state of the search loop in which two variables have been
eliminated and propagation runs into a conflict at a positive decision level. -/
example : ∃ w : Whole.State, Reachable w.t ∧ (w.t.s.level == 1 && w.t.s.removed 2 && w.t.s.removed 3 &&
    (searchPropagate w.t.s).2.isSome) = true :=
  actReach_sound (es := [1, 2, 6, 0, 1, 2, -6, 0, 1, -2, 6, 0, 1, -2, -6, 0, -1, 2, 6, 0,
    -1, 2, -6, 0, -1, -2, 6, 0, -1, -2, -6, 0, 3, 4, 5, 0, -3, 4, 5, 0, -3, -4, 7, 0])
    (xs := [.search true, .eliminate [2, 3], .search true]) (by decide +kernel)

end Verif.Props
