import Verif.Proofs.Collect.Sort
import Verif.Proofs.Core.Edit

/-! # States in which garbage is collected -/

namespace Verif.Core

open Verif.Spec

/-- Propagation is complete and root level literals were flushed from the trail. -/
structure Settled (s : Solver) : Prop where
  inv : Inv s
  watching : Watching s s.trail.length
  unflushed : s.unflushed = 0

/-- The literals of a clause which are not falsified by units. -/
def Solver.reduct (s : Solver) (c : List Nat) : List Nat :=
  c.filter fun l => Decidable.decide (¬ s.fixed l < 0)

theorem fixed_pos {s : Solver} (ht : TrailInv s) (l : Nat) :
    0 < s.fixed l ↔ s.values l = 1 ∧ s.lev l = 0 := by
  have := ht.dom l
  unfold Solver.fixed
  split
  · omega
  · split <;> omega

theorem fixed_neg {s : Solver} (ht : TrailInv s) (l : Nat) :
    s.fixed l < 0 ↔ s.values l = -1 ∧ s.lev l = 0 := by
  have := ht.dom l
  unfold Solver.fixed
  split
  · omega
  · split <;> omega

theorem mem_reduct {s : Solver} (ht : TrailInv s) {c : List Nat} {l : Nat} :
    l ∈ s.reduct c ↔ l ∈ c ∧ ¬ (s.values l = -1 ∧ s.lev l = 0) := by
  unfold Solver.reduct
  rw [List.mem_filter, decide_eq_true_iff, fixed_neg ht]

theorem rootSat_any {s : Solver} (ht : TrailInv s) (c : List Nat) :
    (c.any fun l => Decidable.decide (0 < s.fixed l)) = true ↔ s.RootSat c := by
  rw [List.any_eq_true]
  constructor
  · rintro ⟨l, hl, h⟩; exact ⟨l, hl, (fixed_pos ht l).1 (of_decide_eq_true h)⟩
  · rintro ⟨l, hl, h⟩; exact ⟨l, hl, decide_eq_true ((fixed_pos ht l).2 h)⟩

theorem Settled.not_trail {s : Solver} (h : Settled s) {l : Nat} (h0 : s.lev l = 0) :
    l ∉ s.trail := by
  intro hl
  have := h.inv.trail.unflushed
  rw [h.unflushed] at this
  have hn := List.eq_nil_of_length_eq_zero this.symm
  rw [List.filter_eq_nil_iff] at hn
  exact hn l hl (by simp [h0])

theorem Settled.satisfying {s : Solver} (h : Settled s) {c : List Nat} {w : Nat}
    (h0 : s.lev w = 0) (hs : s.Satisfying c w) : s.RootSat c := by
  obtain ⟨t, ht, h1, h2⟩ := hs
  refine ⟨t, ht, h1, ?_⟩
  have hle := h.inv.trail.levle t h1
  cases hf : s.frames[0]? with
  | some f =>
    have := h2 0 f hf fun hm => h.not_trail (l := neg w) (by rw [lev_neg]; exact h0)
      (List.mem_of_mem_drop hm)
    omega
  | none =>
    have := List.getElem?_eq_none_iff.1 hf
    rw [h.inv.trail.frames] at this
    omega

/-- A watched literal falsified by a unit: the clause is satisfied by a unit. -/
theorem Settled.watched {s : Solver} (h : Settled s) {r w : Nat} (hr : s.Live r)
    (hw : (s.clause r).Watched w) (hv : s.values w = -1) (h0 : s.lev w = 0) :
    s.RootSat (s.clause r).lits :=
  h.satisfying h0 ((h.watching.large r hr w hw hv fun hm =>
    h.not_trail (l := neg w) (by rw [lev_neg]; exact h0) (List.mem_of_mem_drop hm)).resolve_right
    fun e => e.2.1 h0)

theorem Settled.binary {s : Solver} (h : Settled s) {w o : Nat} (hm : Watch.binary o ∈ s.watches w)
    (hv : s.values w = -1) (h0 : s.lev w = 0) : s.values o = 1 ∧ s.lev o = 0 := by
  obtain ⟨t, ht, h1⟩ := h.satisfying h0 (h.watching.binary w o hm hv fun hm =>
    h.not_trail (l := neg w) (by rw [lev_neg]; exact h0) (List.mem_of_mem_drop hm))
  rw [List.mem_singleton.1 ht] at h1
  exact h1

theorem lits_two {s : Solver} (hc : ClauseInv s) {r : Nat} (hr : s.Live r) :
    ∃ a b rest, (s.clause r).lits = a :: b :: rest := by
  have := hc.size r hr
  match h : (s.clause r).lits with
  | a :: b :: rest => exact ⟨a, b, rest, rfl⟩
  | [a] => rw [h] at this; simp at this
  | [] => rw [h] at this; simp at this

/-- The watched literals stay. -/
theorem Settled.reduct_two {s : Solver} (h : Settled s) {r : Nat} (hr : s.Live r)
    (hn : ¬ s.RootSat (s.clause r).lits) :
    ∃ a b rest, (s.clause r).lits = a :: b :: rest ∧
      s.reduct (s.clause r).lits = a :: b :: s.reduct rest := by
  obtain ⟨a, b, rest, e⟩ := lits_two h.inv.clause hr
  refine ⟨a, b, rest, e, ?_⟩
  have ha : ¬ s.fixed a < 0 := fun hf => by
    obtain ⟨h1, h2⟩ := (fixed_neg h.inv.trail a).1 hf
    exact hn (h.watched hr (.inl (by rw [e]; rfl)) h1 h2)
  have hb : ¬ s.fixed b < 0 := fun hf => by
    obtain ⟨h1, h2⟩ := (fixed_neg h.inv.trail b).1 hf
    exact hn (h.watched hr (.inr (by rw [e]; rfl)) h1 h2)
  rw [e]
  unfold Solver.reduct
  rw [List.filter_cons, if_pos (by simpa using ha), List.filter_cons, if_pos (by simpa using hb)]

/-- What is known about a clause which is a reason. -/
structure Forces (s : Solver) (c : List Nat) (l : Nat) : Prop where
  mem : l ∈ c
  true : s.values l = 1
  lev : s.lev l ≠ 0
  others : ∀ m ∈ c, m ≠ l → s.values m = -1 ∧ s.lev m ≤ s.lev l ∧ (s.lev m = 0 ∨ s.pos m < s.pos l)
  max : ∃ m ∈ c, m ≠ l ∧ s.lev m = s.lev l

theorem Inv.forces {s : Solver} (h : Inv s) {l r : Nat} (hv : s.values l = 1)
    (hr : (s.assigned (l / 2)).reason = .large r) :
    s.Live r ∧ Forces s (s.clause r).lits l ∧ (s.clause r).Watched l := by
  obtain ⟨h1, h2, h3, h4⟩ := h.reason.large l r hv hr (.inl (Nat.lt_succ_of_le (h.trail.levle l hv)))
  refine ⟨h1, ⟨?_, hv, ?_, h3, h4⟩, h2⟩
  · rcases h2 with h2 | h2 <;> exact List.mem_of_getElem? h2
  · intro h0
    rw [h.reason.root l hv h0] at hr
    cases hr

theorem Forces.not_rootSat {s : Solver} {c : List Nat} {l : Nat} (h : Forces s c l) :
    ¬ s.RootSat c := by
  rintro ⟨m, hm, h1, h2⟩
  by_cases e : m = l
  · rw [e] at h2; exact h.lev h2
  · have := (h.others m hm e).1; omega

theorem Forces.reduct {s : Solver} (ht : TrailInv s) {c : List Nat} {l : Nat} (h : Forces s c l) :
    Forces s (s.reduct c) l := by
  refine ⟨(mem_reduct ht).2 ⟨h.mem, fun h' => by have := h.true; omega⟩, h.true, h.lev,
    fun m hm => h.others m ((mem_reduct ht).1 hm).1, ?_⟩
  obtain ⟨m, hm, h1, h2⟩ := h.max
  exact ⟨m, (mem_reduct ht).2 ⟨hm, fun h' => by have := h.lev; omega⟩, h1, h2⟩

theorem Forces.perm {s : Solver} {c d : List Nat} {l : Nat} (h : Forces s c l) (hp : ∀ x, x ∈ c ↔ x ∈ d) :
    Forces s d l := by
  refine ⟨(hp _).1 h.mem, h.true, h.lev, fun m hm => h.others m ((hp _).2 hm), ?_⟩
  obtain ⟨m, hm, h1, h2⟩ := h.max
  exact ⟨m, (hp _).1 hm, h1, h2⟩

theorem Forces.only {s : Solver} {c : List Nat} {l m : Nat} (h : Forces s c l) (hm : m ∈ c)
    (h1 : s.values m = 1) : m = l := by
  by_cases e : m = l
  · exact e
  · have := (h.others m hm e).1; omega

theorem find?_unique {p : Nat → Bool} {c : List Nat} {l : Nat} (hm : l ∈ c) (hp : p l = true)
    (hu : ∀ m ∈ c, p m = true → m = l) : c.find? p = some l := by
  cases hf : c.find? p with
  | none =>
    rw [List.find?_eq_none] at hf
    exact absurd hp (by simpa using hf l hm)
  | some m =>
    rw [hu m (List.mem_of_find?_eq_some hf) (List.find?_some hf)]

theorem Forces.forced {s : Solver} (ht : TrailInv s) {c : List Nat} {l : Nat} (h : Forces s c l) :
    s.forced c = some l := by
  unfold Solver.forced
  refine find?_unique h.mem (decide_eq_true (by rw [h.true]; decide)) fun m hm hp => ?_
  have := of_decide_eq_true hp
  have := ht.dom m
  exact h.only hm (by omega)

theorem Forces.two {s : Solver} {a b l : Nat} (h : Forces s [a, b] l) (hab : a ≠ b) :
    ∃ o, s.lastFalse [a, b] = some o ∧ (a = l ∧ b = o ∨ a = o ∧ b = l) ∧ s.values o = -1 ∧
      s.lev o = s.lev l ∧ s.pos o < s.pos l := by
  have key : ∀ o, o ∈ [a, b] → o ≠ l → (∀ m ∈ [a, b], m ≠ l → m = o) →
      s.lastFalse [a, b] = some o ∧ s.values o = -1 ∧ s.lev o = s.lev l ∧ s.pos o < s.pos l := by
    intro o ho hne hu
    have h1 := h.others o ho hne
    obtain ⟨m, hm, h2, h3⟩ := h.max
    rw [hu m hm h2] at h3
    refine ⟨?_, h1.1, h3, h1.2.2.resolve_left fun h0 => h.lev (by omega)⟩
    unfold Solver.lastFalse
    refine find?_unique (List.mem_reverse.2 ho) (decide_eq_true (by rw [h1.1]; decide)) fun m hm hp => ?_
    have hp := of_decide_eq_true hp
    refine hu m (List.mem_reverse.1 hm) fun e => ?_
    rw [e, h.true] at hp
    omega
  have hm := h.mem
  simp only [List.mem_cons, List.not_mem_nil, or_false] at hm
  rcases hm with rfl | rfl
  · obtain ⟨h1, h2⟩ := key b (by simp) (Ne.symm hab) (by simp)
    exact ⟨b, h1, .inl ⟨rfl, rfl⟩, h2⟩
  · obtain ⟨h1, h2⟩ := key a (by simp) hab (by simp)
    exact ⟨a, h1, .inr ⟨rfl, rfl⟩, h2⟩

/-- Nothing but clauses, watches, reasons and the proof changes. -/
structure Framed (s t : Solver) : Prop where
  vars : t.vars = s.vars
  removed : t.removed = s.removed
  values : t.values = s.values
  trail : t.trail = s.trail
  propagate : t.propagate = s.propagate
  frames : t.frames = s.frames
  level : t.level = s.level
  unassigned : t.unassigned = s.unassigned
  unflushed : t.unflushed = s.unflushed
  inconsistent : t.inconsistent = s.inconsistent
  options : t.options = s.options
  levels : ∀ v, (t.assigned v).level = (s.assigned v).level
  positions : ∀ v, (t.assigned v).trail = (s.assigned v).trail
  decisions : t.decisions = s.decisions
  conflicts : t.conflicts = s.conflicts
  iterating : t.iterating = s.iterating

theorem Framed.refl (s : Solver) : Framed s s :=
  ⟨rfl, rfl, rfl, rfl, rfl, rfl, rfl, rfl, rfl, rfl, rfl, fun _ => rfl, fun _ => rfl, rfl, rfl, rfl⟩

theorem Framed.trans {s t u : Solver} (h : Framed s t) (g : Framed t u) : Framed s u :=
  ⟨g.1.trans h.1, g.2.trans h.2, g.3.trans h.3, g.4.trans h.4, g.5.trans h.5, g.6.trans h.6,
   g.7.trans h.7, g.8.trans h.8, g.9.trans h.9, g.10.trans h.10, g.11.trans h.11,
   fun v => (g.12 v).trans (h.12 v), fun v => (g.13 v).trans (h.13 v),
   g.14.trans h.14, g.15.trans h.15, g.16.trans h.16⟩

theorem Framed.lev {s t : Solver} (h : Framed s t) (l : Nat) : t.lev l = s.lev l := h.levels _
theorem Framed.pos {s t : Solver} (h : Framed s t) (l : Nat) : t.pos l = s.pos l := h.positions _

theorem Framed.fixed {s t : Solver} (h : Framed s t) (l : Nat) : t.fixed l = s.fixed l := by
  unfold Solver.fixed
  rw [h.values, h.lev]

theorem Framed.reduct {s t : Solver} (h : Framed s t) (c : List Nat) : t.reduct c = s.reduct c := by
  unfold Solver.reduct
  simp only [h.fixed]

theorem Framed.rootSat {s t : Solver} (h : Framed s t) (c : List Nat) : t.RootSat c ↔ s.RootSat c := by
  unfold Solver.RootSat
  simp only [h.values, h.lev]

theorem Framed.forces {s t : Solver} (h : Framed s t) {c : List Nat} {l : Nat} :
    Forces t c l ↔ Forces s c l := by
  constructor <;> rintro ⟨h1, h2, h3, h4, h5⟩
  · simp only [h.values, h.lev, h.pos] at h2 h3 h4 h5; exact ⟨h1, h2, h3, h4, h5⟩
  · simp only [← h.values, ← h.lev, ← h.pos] at h2 h3 h4 h5; exact ⟨h1, h2, h3, h4, h5⟩

theorem Framed.forced {s t : Solver} (h : Framed s t) (c : List Nat) : t.forced c = s.forced c := by
  unfold Solver.forced; rw [h.values]

theorem Framed.lastFalse {s t : Solver} (h : Framed s t) (c : List Nat) :
    t.lastFalse c = s.lastFalse c := by
  unfold Solver.lastFalse; rw [h.values]

theorem Framed.trailInv {s t : Solver} (h : Framed s t) (ht : TrailInv s) : TrailInv t := by
  have hV : ∀ l, t.Valid l ↔ s.Valid l := fun l => by unfold Solver.Valid; rw [h.vars, h.removed]
  refine ⟨?_, ?_, ?_, ?_, ?_, ?_, ?_, ?_, ?_, ?_, ?_, ?_, ?_⟩
  · rw [h.values]; exact ht.dom
  · rw [h.values]; exact ht.anti
  · intro l; rw [h.values, hV]; exact ht.valid l
  · have : t.free = s.free := by unfold Solver.free; rw [h.vars, h.removed, h.values]
    rw [h.unassigned, this]; exact ht.count
  · rw [h.trail]; exact ht.nodup
  · rw [h.trail, h.values]; exact ht.tval
  · intro p l; rw [h.trail, h.pos]; exact ht.tpos p l
  · intro l; rw [h.trail, h.values, h.lev]; exact ht.flushed l
  · intro l; rw [h.values, h.lev, h.level]; exact ht.levle l
  · rw [h.frames, h.level]; exact ht.frames
  · intro j f; rw [h.frames, h.trail, h.lev]; exact ht.decision j f
  · intro j f; rw [h.frames, h.trail]; intro hj l hl; rw [h.lev]; exact ht.before j f hj l hl
  · rw [h.unflushed, h.trail]
    have : (fun l => Decidable.decide (t.lev l = 0)) = fun l => Decidable.decide (s.lev l = 0) := by
      funext l; rw [h.lev]
    rw [this]; exact ht.unflushed

theorem setReason_framed (s : Solver) (l : Nat) (r : Reason) : Framed s (s.setReason l r) := by
  refine ⟨rfl, rfl, rfl, rfl, rfl, rfl, rfl, rfl, rfl, rfl, rfl, fun v => ?_, fun v => ?_, rfl, rfl, rfl⟩ <;>
  · unfold Solver.setReason upd
    simp only
    split
    · rename_i e; rw [e]
    · rfl

theorem setReason_reason (s : Solver) (l : Nat) (r : Reason) (v : Nat) :
    ((s.setReason l r).assigned v).reason = if v = l / 2 then r else (s.assigned v).reason := by
  unfold Solver.setReason upd
  simp only
  split <;> rfl

end Verif.Core
