import Verif.Proofs.Whole.Reach
import Verif.Proofs.WalkInit
import Verif.Proofs.Core.Warmup
import Verif.Proofs.Core.Bound
import Verif.Proofs.Reach
import Verif.Proofs.Examples

/-!
# Local search and warm-up (C58)

`Input.formula` are the irredundant clauses and `Input.extend b` is the assignment with
the root values for assigned variables and the phases `b` for the other ones.
`Input.Ready` says that the root assignment is propagated, as it is when `kissat_rephase`
starts local search; `C58_ready` shows this for the search loop.
Going to the root level is assumed to find no conflict there (backtrack.c:171-172); without
collection of garbage on positive decision levels this holds (`C59_root_conflict_free`), otherwise not
(`C36_C59_root_conflict_ignored`).
-/

namespace Verif.Props

open Verif.Core Verif.Spec

/-- The state of `kissat_search` when `kissat_rephase` (rephase.c:121-133) has gone back to the
root level and starts local search. -/
def Walking (r : Solver) : Prop :=
  ∃ t s, Reachable t ∧ searchPropagate t.s = (s, none) ∧ s.rootConflict = false ∧ r = s.flushToRoot

/-- The input of local search: `binaries` are irredundant binary clauses in watch lists. -/
def walkInput (r : Solver) (saved phase : Nat → Int) (binaries : List (Nat × Nat)) : Walk.Input where
  vars := r.vars
  active := fun v => !r.removed v && r.values (2 * v) == 0
  root := r.values
  saved := saved
  phase := phase
  binaries := binaries
  clauses := r.arena.map fun c => ⟨c.redundant, c.garbage, c.lits⟩

theorem walking_root {r : Solver} (h : Walking r) : ∃ orig G, PropInv orig G r ∧
    r.propagate = r.trail.length ∧ r.level = 0 := by
  obtain ⟨t, s, ht, hs, hn, rfl⟩ := h
  obtain ⟨_, _, _, hb, _⟩ := ht.between
  have hp := searchPropagate_ok hb
  rw [hs] at hp
  obtain ⟨_, _, _, h1, h2, _⟩ := hp
  obtain ⟨k1, k2, _, k4⟩ := flushToRoot_ok h1 h2 hn
  exact ⟨_, _, k1, k2, k4⟩

/-- C58: when local search starts, the root assignment is propagated. -/
theorem C58_ready {r : Solver} (h : Walking r) {saved phase : Nat → Int}
    (hp : ∀ v, v < r.vars → phase v = 1 ∨ phase v = -1) {binaries : List (Nat × Nat)}
    (hb : ∀ p ∈ binaries, Watch.binary p.2 ∈ r.watches p.1) :
    (walkInput r saved phase binaries).Ready := by
  obtain ⟨orig, G, h, hpr, h0⟩ := walking_root h
  have ht := h.ok.inv.trail
  have hB := Bound.of_complete h hpr fun _ => h0
  have hF : ∀ c ∈ (walkInput r saved phase binaries).formula,
      (∃ a b, c = [a, b] ∧ Watch.binary b ∈ r.watches a) ∨
      ∃ k, r.Live k ∧ (r.clause k).lits = c := by
    intro c hc
    rcases List.mem_append.1 hc with hc | hc
    · obtain ⟨p, h1, rfl⟩ := List.mem_map.1 hc
      exact .inl ⟨p.1, p.2, rfl, hb p h1⟩
    · obtain ⟨d, h1, rfl⟩ := List.mem_map.1 hc
      obtain ⟨h1, h2⟩ := List.mem_filter.1 h1
      obtain ⟨e, h3, rfl⟩ := List.mem_map.1 h1
      obtain ⟨k, hk⟩ := List.mem_iff_getElem?.1 h3
      have he : r.clause k = e := by unfold Solver.clause; simp [hk]
      refine .inr ⟨k, ?_, by rw [he]⟩
      unfold Solver.Live
      rw [he]
      unfold Walk.Clause.active at h2
      simp only [Bool.and_eq_true, Bool.not_eq_true'] at h2
      exact h2.1
  have hvalid : ∀ c ∈ (walkInput r saved phase binaries).formula, ∀ l ∈ c, r.Valid l := by
    intro c hc l hl
    rcases hF c hc with ⟨a, b, rfl, h1⟩ | ⟨k, h1, rfl⟩
    · obtain ⟨_, _, _, ha, hb⟩ := h.ok.inv.clause.bin a b h1
      simp only [List.mem_cons, List.not_mem_nil, or_false] at hl
      rcases hl with rfl | rfl
      · exact ha
      · exact hb
    · exact h.ok.inv.clause.valid k h1 l hl
  have hneg : ∀ l, r.values l = -1 → r.values (neg l) = 1 := fun l hl => by rw [ht.anti]; omega
  refine ⟨ht.dom, ht.anti, fun v hv _ => hp v hv, fun v _ ha => ?_, fun c hc l hl hz => ?_,
    fun c hc => ?_⟩
  · have ha : (!r.removed v && r.values (2 * v) == 0) = true := ha
    simp only [Bool.and_eq_true, beq_iff_eq] at ha
    exact ha.2
  · have hv := hvalid c hc l hl
    have hz' := (Walk.neg_zero ht.anti l).1 hz
    refine ⟨hv.1, ?_⟩
    show (!r.removed (l / 2) && r.values (2 * (l / 2)) == 0) = true
    rw [hv.2, hz']; rfl
  · show (∃ l ∈ c, r.values l = 1) ∨ ∃ l ∈ c, ∃ m ∈ c, l ≠ m ∧ r.values l = 0 ∧ r.values m = 0
    by_cases hs : ∃ l ∈ c, r.values l = 1
    · exact .inl hs
    right
    have hnt : ∀ l ∈ c, r.values l = 0 ∨ r.values l = -1 := fun l hl => by
      have := ht.dom l
      have : r.values l ≠ 1 := fun e => hs ⟨l, hl, e⟩
      omega
    rcases hF c hc with ⟨a, b, rfl, h1⟩ | ⟨k, h1, rfl⟩
    · obtain ⟨h2, hab, _⟩ := h.ok.inv.clause.bin a b h1
      refine ⟨a, by simp, b, by simp, hab, ?_, ?_⟩
      · rcases hnt a (by simp) with e | e
        · exact e
        · exact absurd ⟨b, by simp, hB.bin a b h1 (hneg a e)⟩ hs
      · rcases hnt b (by simp) with e | e
        · exact e
        · exact absurd ⟨a, by simp, hB.bin b a h2 (hneg b e)⟩ hs
    · have hsize := h.ok.inv.clause.size k h1
      generalize hL : (r.clause k).lits = c at *
      by_cases hu : ∃ l ∈ c, r.values l = 0
      · obtain ⟨l, hl, hz⟩ := hu
        by_cases hm : ∃ m ∈ c, m ≠ l ∧ r.values m = 0
        · obtain ⟨m, h2, h3, h4⟩ := hm
          exact ⟨l, hl, m, h2, h3.symm, hz, h4⟩
        · exfalso
          have := hB.large k h1 l (by rw [hL]; exact hl) fun m hm1 hm2 => by
            rw [hL] at hm1
            rcases hnt m hm1 with e | e
            · exact absurd ⟨m, hm1, hm2, e⟩ hm
            · exact hneg m e
          exact hs ⟨l, hl, this⟩
      · exfalso
        cases c with
        | nil => simp at hsize
        | cons x c =>
          have := hB.large k h1 x (by rw [hL]; simp) fun m hm1 _ => by
            rw [hL] at hm1
            rcases hnt m hm1 with e | e
            · exact absurd ⟨m, hm1, e⟩ hu
            · exact hneg m e
          exact hs ⟨x, by simp, this⟩

/-- C58: local search is defined whatever literals are picked, leaves the root assignment
alone, and only changes saved phases. -/
theorem C58_walk_defined {i : Walk.Input} (h : i.Ready) (choices : List Nat) :
    ∃ out, Walk.walk i choices = some out ∧ out.values = i.root ∧
      (out.improved = false → out.saved = i.saved) ∧
      ∀ v, i.vars ≤ v → out.saved v = i.saved v := by
  obtain ⟨out, h1, h2, _, _, _, _, h3, _, h4⟩ := Walk.walk_ok h choices
  exact ⟨out, h1, h2, h3, h4⟩

/-- C58: the numbers of broken clauses local search reports are the numbers of irredundant
clauses falsified by the initial assignment and by the best assignment, which is the one
saved if it is better than the initial one. -/
theorem C58_walk_reports {i : Walk.Input} (h : i.Ready) {choices : List Nat} {out : Walk.Output}
    (hw : Walk.walk i choices = some out) :
    out.initial = numFalsified (i.extend i.phase) i.formula ∧
    out.minimum = numFalsified (i.extend (if out.improved then out.saved else i.phase)) i.formula ∧
    out.minimum ≤ out.initial ∧ (out.improved = true ↔ out.minimum < out.initial) := by
  obtain ⟨out', h1, _, _, h2, h3, h4, _, h5, _⟩ := Walk.walk_ok h choices
  rw [hw] at h1
  cases h1
  refine ⟨h2, ?_, h3, h4⟩
  cases hi : out.improved with
  | true => rw [if_pos rfl, h5 hi]
  | false =>
    rw [if_neg (by simp), ← h2]
    have : ¬ out.minimum < out.initial := fun hc => by rw [h4.2 hc] at hi; cases hi
    omega

/-- C58: local search adds no clause, changes no literal, and deletes only clauses
satisfied by the root assignment. -/
theorem C58_walk_clauses {i : Walk.Input} (h : i.Ready) {choices : List Nat} {out : Walk.Output}
    (hw : Walk.walk i choices = some out) :
    out.clauses.length = i.clauses.length ∧
    ∀ (k : Nat) (c d : Walk.Clause), i.clauses[k]? = some c → out.clauses[k]? = some d →
      d.lits = c.lits ∧ d.redundant = c.redundant ∧
      (d.garbage = c.garbage ∨ d.garbage = true ∧ ∃ l ∈ c.lits, i.root l = 1) := by
  obtain ⟨out', h1, _, h2, _⟩ := Walk.walk_ok h choices
  rw [hw] at h1
  cases h1
  rw [h2]
  refine ⟨List.length_map _, fun k c d hc hd => ?_⟩
  rw [List.getElem?_map, hc] at hd
  simp only [Option.map_some, Option.some.injEq] at hd
  subst hd
  unfold Walk.Clause.mark
  split
  · rename_i hm
    rw [Bool.and_eq_true] at hm
    refine ⟨rfl, rfl, .inr ⟨rfl, ?_⟩⟩
    have := hm.2
    unfold Walk.Clause.rootSat at this
    rw [List.any_eq_true] at this
    obtain ⟨l, h3, h4⟩ := this
    refine ⟨l, h3, ?_⟩
    have := h.dom l
    have : 0 < i.root l := by simpa using h4
    omega
  · exact ⟨rfl, rfl, .inl rfl⟩

/-- C58: the irredundant clauses after local search have the same models among the
assignments which extend the root assignment. -/
theorem C58_walk_models {i : Walk.Input} (h : i.Ready) {choices : List Nat} {out : Walk.Output}
    (hw : Walk.walk i choices = some out) (σ : Assignment)
    (hσ : ∀ l, i.root l = 1 → litTrue σ l) :
    (∀ c ∈ { i with clauses := out.clauses : Walk.Input }.formula, SatClause σ c) ↔
      ∀ c ∈ i.formula, SatClause σ c := by
  have hk := C58_walk_clauses h hw
  obtain ⟨out', h1, _, h2, _⟩ := Walk.walk_ok h choices
  rw [hw] at h1
  cases h1
  have key : ∀ c ∈ (out.clauses.filter Walk.Clause.active).map Walk.Clause.lits,
      c ∈ (i.clauses.filter Walk.Clause.active).map Walk.Clause.lits := by
    intro c hc
    obtain ⟨d, h3, rfl⟩ := List.mem_map.1 hc
    obtain ⟨h3, h4⟩ := List.mem_filter.1 h3
    rw [h2] at h3
    obtain ⟨e, h5, rfl⟩ := List.mem_map.1 h3
    unfold Walk.Clause.mark at h4 ⊢
    split at h4
    · unfold Walk.Clause.active at h4; simp at h4
    · rename_i hm
      rw [if_neg hm]
      exact List.mem_map.2 ⟨e, List.mem_filter.2 ⟨h5, h4⟩, rfl⟩
  constructor
  · intro hc c hm
    rcases List.mem_append.1 hm with hm | hm
    · exact hc c (List.mem_append_left _ hm)
    · obtain ⟨d, h3, rfl⟩ := List.mem_map.1 hm
      obtain ⟨h3, h4⟩ := List.mem_filter.1 h3
      by_cases hs : d.rootSat i.root = true
      · unfold Walk.Clause.rootSat at hs
        rw [List.any_eq_true] at hs
        obtain ⟨l, h5, h6⟩ := hs
        have := h.dom l
        have h6 : 0 < i.root l := by simpa using h6
        exact ⟨l, h5, hσ l (by omega)⟩
      · refine hc _ (List.mem_append_right _ (List.mem_map.2 ⟨d, List.mem_filter.2 ⟨?_, h4⟩, rfl⟩))
        show d ∈ out.clauses
        rw [h2]
        refine List.mem_map.2 ⟨d, h3, ?_⟩
        unfold Walk.Clause.mark
        simp [hs]
  · intro hc c hm
    rcases List.mem_append.1 hm with hm | hm
    · exact hc c (List.mem_append_left _ hm)
    · exact hc c (List.mem_append_right _ (key c hm))

/-- C58: warm-up is defined whatever is decided, returns to the root level with the same
assignment and trail, and keeps all clauses (up to the order of literals) and the proof. -/
theorem C58_warmup {r : Solver} (h : Walking r) {order : List Nat}
    (ho : ∀ v, v ∈ order ↔ v < r.vars ∧ r.removed v = false) (ds : List (List Nat × Bool)) :
    ∃ u, warmup order ds r = some u ∧ u.values = r.values ∧ u.trail = r.trail ∧ u.level = 0 ∧
      u.proof = r.proof ∧ u.inconsistent = r.inconsistent ∧
      (∀ c, (u.clause c).garbage = false ↔ (r.clause c).garbage = false) ∧
      (∀ c, (r.clause c).garbage = false → (u.clause c).lits.Perm (r.clause c).lits) ∧
      (∀ c, (u.clause c).redundant = (r.clause c).redundant) ∧
      ∀ a b, Watch.binary b ∈ u.watches a ↔ Watch.binary b ∈ r.watches a := by
  obtain ⟨orig, G, hP, hp, h0⟩ := walking_root h
  obtain ⟨u, h1, _, h2⟩ := warmup_ok hP hp h0 ho ds
  exact ⟨u, h1, h2.values, h2.trail, h2.level.trans h0, h2.proof, h2.kept.inconsistent, h2.live, h2.lits,
    h2.redundant, h2.bin⟩

/-! ## Examples -/

/-- Four clauses over three active variables, one satisfied clause and one redundant clause;
variable 3 is true. -/
def exWalk : Walk.Input where
  vars := 4
  active := fun v => v < 3
  root := fun l => if l = 6 then 1 else if l = 7 then -1 else 0
  saved := fun _ => 1
  phase := fun _ => -1
  binaries := [(0, 2), (1, 4)]
  clauses := [⟨false, false, [0, 2, 4]⟩, ⟨false, false, [1, 6, 2]⟩, ⟨true, false, [0, 3, 5]⟩,
    ⟨false, false, [2, 7, 4]⟩]

theorem exWalk_ready : exWalk.Ready := by
  have hroot : ∀ l, exWalk.root l = if l = 6 then 1 else if l = 7 then -1 else 0 := fun _ => rfl
  refine ⟨fun l => ?_, fun l => ?_, fun v _ _ => .inr rfl, fun v _ ha => ?_, by decide, by decide⟩
  · rw [hroot]; split
    · simp
    · split <;> simp
  · rw [hroot, hroot]
    unfold neg
    split <;> (repeat' split) <;> omega
  · have ha : decide (v < 3) = true := ha
    have ha : v < 3 := by simpa using ha
    rw [hroot, if_neg (by omega), if_neg (by omega)]

/-- The initial assignment falsifies three clauses, the best one none. -/
example : (Walk.walk exWalk [1, 0, 0]).map (fun o => (o.initial, o.minimum, o.improved,
    (List.range 4).map o.saved, o.clauses.map Walk.Clause.garbage)) =
    some (3, 0, true, [-1, 1, -1, 0], [false, true, false, false]) := by decide

example : ∃ out, Walk.walk exWalk [1, 0, 0] = some out ∧ out.values = exWalk.root :=
  (C58_walk_defined exWalk_ready _).imp fun _ h => ⟨h.1, h.2.1⟩

/-- A state in which local search starts, with one value on root level, after a decision;
warm-up makes two decisions and restores this state. -/
example : ∃ r, Walking r ∧ r.values 0 = 1 ∧ r.arena.length = 4 ∧
    (match warmup [0, 1, 2, 3] [([1], true), ([2], true)] r with
    | some u => u.trail = r.trail ∧ u.values = r.values
    | none => False) := by
  obtain ⟨t, h1, h2⟩ := exReach_sound (es := [1, 0, -2, -3, 4, 0, -2, -3, -4, 0, 2, 3, 4, 0, -4, -2, 3, 0])
    (os := [exDecide [0, 1, 2, 3] true])
    (P := fun t => match searchPropagate t.s with
      | (s, none) => (s.level == 1) && (s.flushToRoot.values 0 == 1) && (s.flushToRoot.arena.length == 4) &&
          (List.range 4 == (List.range 4).filter fun v => !s.flushToRoot.removed v) &&
          (s.flushToRoot.vars == 4 && !s.rootConflict)
      | _ => false) (by decide +kernel)
  revert h2
  cases hs : searchPropagate t.s with
  | mk s c =>
    cases c with
    | some _ => intro h; cases h
    | none =>
      intro h2
      simp only [Bool.and_eq_true, beq_iff_eq, Bool.not_eq_true'] at h2
      obtain ⟨h2, h3, hn⟩ := h2
      have h2 := And.intro h2 h3
      have hw : Walking s.flushToRoot := ⟨t, s, h1, hs, hn, rfl⟩
      refine ⟨_, hw, h2.1.1.1.2, h2.1.1.2, ?_⟩
      obtain ⟨u, hu, h3, h4, _⟩ := C58_warmup hw (order := [0, 1, 2, 3]) (fun v => by
        have h5 := h2.1.2
        rw [h2.2]
        have h6 : v ∈ List.range 4 ↔ v ∈ (List.range 4).filter fun v => !s.flushToRoot.removed v := by
          rw [← h5]
        have h7 : List.range 4 = [0, 1, 2, 3] := by decide
        rw [← h7]
        rw [List.mem_filter] at h6
        constructor
        · intro h8
          have := (h6.1 h8).2
          exact ⟨List.mem_range.1 h8, by simpa using this⟩
        · intro h8
          exact List.mem_range.2 h8.1) [([1], true), ([2], true)]
      rw [hu]
      exact ⟨h4, h3⟩

end Verif.Props
