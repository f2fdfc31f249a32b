import Verif.Proofs.Cnf
import Verif.Model.Core.Minimize

/-! # Invariants of the CDCL core -/

namespace Verif.Core

open Verif.Spec

/-- The clause at `r` exists and is not garbage. -/
def Solver.Live (s : Solver) (r : Nat) : Prop := (s.clause r).garbage = false

/-- The clauses the solver holds: large ones, binary ones (in watch lists) and
root level units. -/
def Solver.formula (s : Solver) : Formula := fun c =>
  (∃ r, s.Live r ∧ c = (s.clause r).lits) ∨
  (∃ a b, Watch.binary b ∈ s.watches a ∧ c = [a, b]) ∨
  (∃ l, s.values l = 1 ∧ s.lev l = 0 ∧ c = [l])

/-- The binary clauses alone. -/
def Solver.bins (s : Solver) : Formula := fun c =>
  ∃ a b, Watch.binary b ∈ s.watches a ∧ c = [a, b]

/-- The same without redundant large clauses. -/
def Solver.irr (s : Solver) : Formula := fun c =>
  (∃ r, s.Live r ∧ (s.clause r).redundant = false ∧ c = (s.clause r).lits) ∨
  (∃ a b, Watch.binary b ∈ s.watches a ∧ c = [a, b]) ∨
  (∃ l, s.values l = 1 ∧ s.lev l = 0 ∧ c = [l])

/-- Trail position. -/
def Solver.pos (s : Solver) (l : Nat) : Nat := (s.assigned (l / 2)).trail

/-- Literal of a variable that is in use. -/
def Solver.Valid (s : Solver) (l : Nat) : Prop := l / 2 < s.vars ∧ s.removed (l / 2) = false

/-- Variables in use without value. -/
def Solver.free (s : Solver) : List Nat :=
  (List.range s.vars).filter fun v => !s.removed v && s.values (2 * v) == 0

/-- Values, trail, frames. -/
structure TrailInv (s : Solver) : Prop where
  dom : ∀ l, s.values l = 1 ∨ s.values l = 0 ∨ s.values l = -1
  anti : ∀ l, s.values (neg l) = - s.values l
  valid : ∀ l, s.values l ≠ 0 → s.Valid l
  count : s.unassigned = s.free.length
  nodup : s.trail.Nodup
  tval : ∀ l ∈ s.trail, s.values l = 1
  tpos : ∀ p l, s.trail[p]? = some l → s.pos l = p
  flushed : ∀ l, s.values l = 1 → l ∉ s.trail → s.lev l = 0
  levle : ∀ l, s.values l = 1 → s.lev l ≤ s.level
  frames : s.frames.length = s.level
  decision : ∀ j f, s.frames[j]? = some f →
    s.trail[f.trail]? = some f.decision ∧ s.lev f.decision = j + 1
  before : ∀ j f, s.frames[j]? = some f → ∀ l ∈ s.trail.take f.trail, s.lev l ≤ j
  unflushed : s.unflushed = (s.trail.filter fun l => s.lev l = 0).length

/-- `w` is one of the two watched literals. -/
def Clause.Watched (c : Clause) (w : Nat) : Prop := c.lits[0]? = some w ∨ c.lits[1]? = some w

/-- Reasons of literals with a positive level.  Only literals below level `L` or
before trail position `k` are covered. -/
structure ReasonInv (s : Solver) (L k : Nat) : Prop where
  root : ∀ l, s.values l = 1 → s.lev l = 0 → (s.assigned (l / 2)).reason = .unit
  unit : ∀ l, s.values l = 1 → s.lev l ≠ 0 → (s.assigned (l / 2)).reason ≠ .unit
  decision : ∀ l, s.values l = 1 → (s.assigned (l / 2)).reason = .decision →
    ∃ f, s.frames[s.lev l - 1]? = some f ∧ f.decision = l
  binary : ∀ l o, s.values l = 1 → (s.assigned (l / 2)).reason = .binary o →
    s.values o = -1 ∧ s.lev o = s.lev l ∧ s.pos o < s.pos l ∧
    UP s.bins (fun x => x = neg o) l
  large : ∀ l r, s.values l = 1 → (s.assigned (l / 2)).reason = .large r →
    (s.lev l < L ∨ s.pos l < k) →
    s.Live r ∧ (s.clause r).Watched l ∧ (∀ m ∈ (s.clause r).lits, m ≠ l →
      s.values m = -1 ∧ s.lev m ≤ s.lev l ∧ (s.lev m = 0 ∨ s.pos m < s.pos l)) ∧
    ∃ m ∈ (s.clause r).lits, m ≠ l ∧ s.lev m = s.lev l

/-- Shape of clauses. -/
structure ClauseInv (s : Solver) : Prop where
  size : ∀ r, s.Live r → 3 ≤ (s.clause r).lits.length
  nodup : ∀ r, s.Live r → (s.clause r).lits.Nodup
  taut : ∀ r, s.Live r → ∀ l ∈ (s.clause r).lits, neg l ∉ (s.clause r).lits
  valid : ∀ r, s.Live r → ∀ l ∈ (s.clause r).lits, s.Valid l
  searched : ∀ r, s.Live r →
    2 ≤ (s.clause r).searched ∧ (s.clause r).searched < (s.clause r).lits.length
  bin : ∀ a b, Watch.binary b ∈ s.watches a →
    Watch.binary a ∈ s.watches b ∧ a ≠ b ∧ a ≠ neg b ∧ s.Valid a ∧ s.Valid b
  last : ∀ r, some r ∈ s.lastLearned → r < s.arena.length

/-- A unit satisfies the clause. -/
def Solver.RootSat (s : Solver) (c : List Nat) : Prop := ∃ l ∈ c, s.values l = 1 ∧ s.lev l = 0

/-- Structure of the watch lists.  Clauses satisfied by units need not be watched (they lose
their watches in garbage collection). -/
structure WatchInv (s : Solver) : Prop where
  watched : ∀ r, s.Live r → ∀ w, (s.clause r).Watched w →
    (∃ b, Watch.large b r ∈ s.watches w) ∨ s.RootSat (s.clause r).lits
  inarena : ∀ w b r, Watch.large b r ∈ s.watches w → r < s.arena.length
  back : ∀ w b r, Watch.large b r ∈ s.watches w → s.Live r →
    (s.clause r).Watched w ∧ b ∈ (s.clause r).lits
  once : ∀ w, ((s.watches w).filterMap Watch.ref?).Nodup

/-- Start of decision level `j` on the trail (levels are counted from one). -/
def Solver.start (s : Solver) (j : Nat) : Nat := (s.frames[j - 1]?.map Frame.trail).getD 0

/-- `w` is false, was processed by propagation up to trail position `k`, and the
clause `c` has a true literal that is not above any decision level that started
after `w` became false. -/
def Solver.Satisfying (s : Solver) (c : List Nat) (w : Nat) : Prop :=
  ∃ t ∈ c, s.values t = 1 ∧ ∀ j f, s.frames[j]? = some f →
    neg w ∉ s.trail.drop f.trail → s.lev t ≤ j

/-- After garbage collection a watched literal `w` which is not a root level literal may be
false without a true literal in the clause if the other watched literal is not.  There is
another literal in the clause which was not false before the first decision. -/
def Solver.Excused (s : Solver) (k : Nat) (c : Clause) (w : Nat) : Prop :=
  s.loose = true ∧ s.lev w ≠ 0 ∧ ∃ v, c.Watched v ∧ v ≠ w ∧
    (s.values v = -1 → neg v ∉ s.trail.drop k → s.Satisfying c.lits v) ∧
    ∃ t ∈ c.lits, t ≠ v ∧ t ≠ w ∧ (s.values t = -1 → neg t ∈ s.trail)

/-- The watch invariant proper, up to trail position `k`. -/
structure Watching (s : Solver) (k : Nat) : Prop where
  large : ∀ r, s.Live r → ∀ w, (s.clause r).Watched w → s.values w = -1 →
    neg w ∉ s.trail.drop k → s.Satisfying (s.clause r).lits w ∨ s.Excused k (s.clause r) w
  binary : ∀ w o, Watch.binary o ∈ s.watches w → s.values w = -1 →
    neg w ∉ s.trail.drop k → s.Satisfying [o] w

/-- All structural invariants. -/
structure Inv (s : Solver) : Prop where
  trail : TrailInv s
  reason : ReasonInv s (s.level + 1) 0
  clause : ClauseInv s
  watch : WatchInv s

end Verif.Core
