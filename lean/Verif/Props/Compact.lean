import Verif.Proofs.Compact.History
import Verif.Proofs.Compact.Scores

/-!
# Compaction of variables (C42)

`Run t`: the tables `t` are reached from the empty ones by importing, activating, assigning,
fixing and eliminating variables and by compaction.  `Anchored t`: trail, frames, queue and
schedule refer to active variables.  `Watched t`: binary clauses are watched twice, clauses
contain only active or fixed variables and units are propagated completely.

`Has t C`: `C` is a clause of the solver written in external literals.
-/

namespace Verif.Props

open Verif.Spec Verif.Compact
open Verif.Model.Queue (QInv Queue)
open Verif.Model.Heap (Heap)

/-- Compaction is defined: all accesses are valid and every literal of clauses, trail, frames
and queue has a new number.  It can be repeated. -/
theorem C42_defined {t : Tables} (h : Run t) (ha : Anchored t) (hw : Watched t) :
    ∃ t', sparseCollect t = some t' ∧ Run t' ∧ Anchored t' ∧ Watched t' := by
  obtain ⟨t', h1, h2, h3, h4⟩ := sparseCollect_ok h.consistent ha hw
  exact ⟨t', h1, .compact h ha hw h1, h4, watched_compacted h.consistent hw h2 h3⟩

/-- What `kissat_value` returns is the same before and after compaction. -/
theorem C42_values {t t' : Tables} (h : Run t) (ha : Anchored t) (hw : Watched t)
    (hc : sparseCollect t = some t') (e : Int) : t'.value e = t.value e := by
  obtain ⟨t1, h1, h2, _⟩ := sparseCollect_ok h.consistent ha hw
  rw [hc] at h1
  cases h1
  exact h2.values e

/-- In external literals: the clauses afterwards are the clauses before without those which
contain a unit, and without literals whose negation is a unit.  Units are the same. -/
theorem C42_clauses {t t' : Tables} (h : Run t) (ha : Anchored t) (hw : Watched t)
    (hc : sparseCollect t = some t') : t'.units = t.units ∧
    ∀ C, Has t' C ↔ ∃ D, Has t D ∧ (∀ e ∈ D, e ∉ t.units) ∧
      C.Perm (D.filter fun e => decide (- e ∉ t.units)) := by
  obtain ⟨t1, h1, h2, h3, _⟩ := sparseCollect_ok h.consistent ha hw
  rw [hc] at h1
  cases h1
  exact ⟨h2.moved.units, clauses_compacted h.consistent hw h2 h3⟩

/-- An assignment of external literals in which a literal or its negation is true, not both,
satisfies clauses and units before compaction if and only if it does so afterwards. -/
theorem C42_models {t t' : Tables} (h : Run t) (ha : Anchored t) (hw : Watched t)
    (hc : sparseCollect t = some t') (σ : Int → Prop) (hσ : ∀ e, σ (- e) ↔ ¬ σ e) :
    ((∀ u ∈ t.units, σ u) ∧ ∀ C, Has t C → ∃ e ∈ C, σ e) ↔
    ((∀ u ∈ t'.units, σ u) ∧ ∀ C, Has t' C → ∃ e ∈ C, σ e) := by
  obtain ⟨hu, hcl⟩ := C42_clauses h ha hw hc
  rw [hu]
  refine and_congr_right fun hunits => ⟨fun hs C hC => ?_, fun hs D hD => ?_⟩
  · obtain ⟨D, h1, h2, h3⟩ := (hcl C).1 hC
    obtain ⟨e, he, hse⟩ := hs D h1
    refine ⟨e, h3.mem_iff.2 (List.mem_filter.2 ⟨he, ?_⟩), hse⟩
    rw [decide_eq_true_eq]
    intro hn
    exact (hσ e).1 (hunits _ hn) hse
  · by_cases hx : ∃ e ∈ D, e ∈ t.units
    · obtain ⟨e, he, heu⟩ := hx
      exact ⟨e, he, hunits e heu⟩
    · obtain ⟨e, he, hse⟩ := hs _ ((hcl _).2 ⟨D, hD, fun e he heu => hx ⟨e, he, heu⟩, List.Perm.refl _⟩)
      exact ⟨e, (List.mem_filter.1 he).1, hse⟩

/-- All which belongs to a variable is still found with the variable.  Variables are identified
by their external numbers. -/
theorem C42_variables {t t' : Tables} (h : Run t) (ha : Anchored t) (hw : Watched t)
    (hc : sparseCollect t = some t') :
    (∀ v', v' < t'.vars → ∃ v, v < t.vars ∧ t'.exports v' = t.exports v ∧ t'.flags v' = t.flags v ∧
      t'.saved v' = t.saved v ∧ t'.target v' = t.target v ∧ t'.best v' = t.best v ∧
      t'.values (2 * v') = t.values (2 * v) ∧ t'.values (2 * v' + 1) = t.values (2 * v + 1) ∧
      (t'.assigned v').level = (t.assigned v).level ∧ (t'.assigned v').trail = (t.assigned v).trail ∧
      (t'.assigned v').binary = (t.assigned v).binary) ∧
    (∀ v, v < t.vars → (t.flags v).active = true → ∃ v', v' < t'.vars ∧ t'.exports v' = t.exports v) := by
  obtain ⟨t1, h1, h2, h3, _⟩ := sparseCollect_ok h.consistent ha hw
  rw [hc] at h1
  cases h1
  have hm := h2.moved
  refine ⟨fun v' hv' => ?_, fun v hv hav => ⟨rank t v, ?_, hm.exports v hv (kept_active hav)⟩⟩
  · rw [hm.vars] at hv'
    obtain ⟨v, g1, g2, rfl⟩ := rank_onto hv'
    have e0 := hm.values (2 * v) (by rw [show 2 * v / 2 = v by omega]; exact g1)
      (by rw [show 2 * v / 2 = v by omega]; exact g2)
    have e1 := hm.values (2 * v + 1) (by rw [show (2 * v + 1) / 2 = v by omega]; exact g1)
      (by rw [show (2 * v + 1) / 2 = v by omega]; exact g2)
    rw [newLit_even] at e0
    rw [newLit_of_odd (by omega), show (2 * v + 1) / 2 = v by omega] at e1
    exact ⟨v, g1, hm.exports v g1 g2, hm.flags v g1 g2, hm.saved v g1 g2, hm.target v g1 g2, hm.best v g1 g2,
      e0, e1, hm.assigned v g1 g2⟩
  · rw [hm.vars]; exact rank_lt t (kept_active hav) hv

/-- The sequences of literals and variables are the same, in external numbers; the number of
phases set is counted again if the number of variables changes. -/
theorem C42_sequences {t t' : Tables} (h : Run t) (ha : Anchored t) (hw : Watched t)
    (hc : sparseCollect t = some t') :
    t'.trail.map (exportLiteral t'.exports) = t.trail.map (exportLiteral t.exports) ∧
    t'.frames.map (exportLiteral t'.exports) = t.frames.map (exportLiteral t.exports) ∧
    (∀ l, QInv t.queue l → (∀ v ∈ l, (t.flags v).active = true) →
      ∃ l', QInv t'.queue l' ∧ l'.map t'.exports = l.map t.exports ∧
      ∀ s, t.queue.search = some s → ∃ s' w, t'.queue.search = some s' ∧ w ∈ l ∧
        t'.exports s' = t.exports w ∧ t.queue.stampOf s ≤ t.queue.stampOf w) ∧
    (∀ v, v ∈ t.sweep → (t.flags v).active = true → ∃ v' ∈ t'.sweep, t'.exports v' = t.exports v) ∧
    (∀ v' ∈ t'.sweep, ∃ v ∈ t.sweep, t'.exports v' = t.exports v) ∧
    (t'.vars < t.vars →
      t'.bestAssigned = ((List.range t.vars).filter fun v => (t.flags v).active && t.best v ≠ 0).length ∧
      t'.targetAssigned = ((List.range t.vars).filter fun v => (t.flags v).active && t.target v ≠ 0).length) := by
  have ht := h.consistent
  obtain ⟨t1, h1, h2, h3, _⟩ := sparseCollect_ok ht ha hw
  rw [hc] at h1
  cases h1
  have hm := h2.moved
  have hlits : ∀ ls : List Nat, (∀ l ∈ ls, l / 2 < t.vars ∧ (t.flags (l / 2)).active = true) →
      (ls.map (newLit t)).map (exportLiteral t'.exports) = ls.map (exportLiteral t.exports) := by
    intro ls hls
    rw [List.map_map]
    exact List.map_congr_left fun l hl => ext_new ht h3 hm (hls l hl).1 (kept_active (hls l hl).2)
  refine ⟨by rw [hm.trail]; exact hlits _ ha.trail, by rw [hm.frames]; exact hlits _ ha.frames,
    fun l hq hl => ?_, fun v hv hav => ?_, fun v' hv' => ?_, fun hlt => ⟨hm.bestAssigned hlt, hm.targetAssigned hlt⟩⟩
  · have hlv : ∀ v ∈ l, v < t.vars := fun v hv => by
      have := hq.holds.vars v hv; rw [ha.vars] at this; exact this
    obtain ⟨g1, g2⟩ := hm.queue l hq hl
    refine ⟨_, g1, ?_, fun s hs => ?_⟩
    · rw [List.map_map]
      exact List.map_congr_left fun v hv => hm.exports v (hlv v hv) (kept_active (hl v hv))
    · obtain ⟨w, w1, w2, w3⟩ := g2 s hs
      exact ⟨_, w, w1, w2, hm.exports w (hlv w w2) (kept_active (hl w w2)), w3⟩
  · rw [hm.sweep]
    exact ⟨rank t v, List.mem_map.2 ⟨v, List.mem_filter.2 ⟨hv, kept_active hav⟩, rfl⟩,
      hm.exports v (ha.sweep v hv) (kept_active hav)⟩
  · rw [hm.sweep] at hv'
    obtain ⟨v, hv, rfl⟩ := List.mem_map.1 hv'
    rw [List.mem_filter] at hv
    exact ⟨v, hv.1, hm.exports v (ha.sweep v hv.1) hv.2⟩

/-- Reasons of assigned literals: the other literal of the binary clause, in external
numbers. -/
theorem C42_reasons {t t' : Tables} (h : Run t) (ha : Anchored t) (hw : Watched t)
    (hc : sparseCollect t = some t') {v v' : Nat} (hv : v < t.vars) (hv' : v' < t'.vars)
    (he : t'.exports v' = t.exports v) (ht : v ∈ t.trail.map (· / 2)) (hb : (t.assigned v).binary = true) :
    exportLiteral t'.exports (t'.assigned v').reason = exportLiteral t.exports (t.assigned v).reason := by
  have hcons := h.consistent
  obtain ⟨t1, h1, h2, h3, _⟩ := sparseCollect_ok hcons ha hw
  rw [hc] at h1
  cases h1
  have hm := h2.moved
  obtain ⟨l, hl, rfl⟩ := List.mem_map.1 ht
  have hk := kept_active (ha.trail l hl).2
  have hr : v' = rank t (l / 2) := by
    refine h3.inj v' _ hv' ?_ ?_
    · rw [hm.vars]; exact rank_lt t hk hv
    · rw [he, hm.exports _ hv hk]
  rw [hr, hm.reason l hl hb]
  exact ext_new hcons h3 hm (ha.reason l hl hb).1 (kept_active (ha.reason l hl hb).2)

/-- Compaction does its job: all variables afterwards are active except for at most one fixed
variable, and no variable is added. -/
theorem C42_dense {t t' : Tables} (h : Run t) (ha : Anchored t) (hw : Watched t)
    (hc : sparseCollect t = some t') :
    (∀ v, v < t'.vars → (t'.flags v).active = true ∨ (t'.flags v).fixed = true) ∧
    (∀ v w, v < t'.vars → w < t'.vars → (t'.flags v).fixed = true → (t'.flags w).fixed = true → v = w) ∧
    t'.vars ≤ t.vars := by
  obtain ⟨t1, h1, h2, h3, _⟩ := sparseCollect_ok h.consistent ha hw
  rw [hc] at h1
  cases h1
  have hm := h2.moved
  refine ⟨fun v hv => ?_, fun v w hv hw hfv hfw => ?_, by rw [hm.vars]; exact rank_le t _⟩
  · rw [hm.vars] at hv
    obtain ⟨x, g1, g2, rfl⟩ := rank_onto hv
    rw [hm.flags x g1 g2]
    rcases kept_iff.1 g2 with hc | hc
    · exact Or.inl hc
    · exact Or.inr hc.1
  · rw [hm.vars] at hv hw
    obtain ⟨x, g1, g2, rfl⟩ := rank_onto hv
    obtain ⟨y, k1, k2, rfl⟩ := rank_onto hw
    rw [hm.flags x g1 g2] at hfv
    rw [hm.flags y k1 k2] at hfw
    have key : ∀ z, kept t z = true → (t.flags z).fixed = true → First t z := by
      intro z hz hf
      rcases kept_iff.1 hz with hc | hc
      · rw [((h.consistent.flags z).1 hc).1] at hf; cases hf
      · exact hc
    rw [(key x g2 hfv).unique (key y k2 hfw)]

/-- The heap of scores afterwards holds the same variables with the same scores; `m` is the map
of variables computed by `map_idx`. -/
theorem C42_scores {α : Type} [LinearOrder α] {zero : α} {junkScore : Nat → α}
    {junkPos : Nat → Option Nat} {junkStack : Nat → Nat} {t t' : Tables} (h : Run t) (ha : Anchored t)
    (hw : Watched t) (hc : sparseCollect t = some t') {old : Heap α} (ho : Model.Heap.Inv zero old)
    (hv : ∀ v, old.contains v = true → v < t.vars ∧ (t.flags v).active = true) :
    ∃ new, compactScores zero junkScore junkPos junkStack
        (mapIdx (finalImports t (compactLiterals t)) (clearExports t (compactLiterals t)))
        t.vars t'.vars old = some new ∧ Model.Heap.Inv zero new ∧
      ∀ v v', v < t.vars → v' < t'.vars → t'.exports v' = t.exports v →
        new.contains v' = old.contains v ∧ new.getScore zero v' = old.getScore zero v := by
  have hcons := h.consistent
  obtain ⟨t1, h1, h2, h3, _⟩ := sparseCollect_ok hcons ha hw
  rw [hc] at h1
  cases h1
  have hm := h2.moved
  have hr := compactLiterals_ok hcons
  have hmap : ∀ v d, v < t.vars →
      mapIdx (finalImports t (compactLiterals t)) (clearExports t (compactLiterals t)) v = some d →
      kept t v = true ∧ d = rank t v := by
    intro v d hv hd
    rw [mapIdx_ok hcons hr hv] at hd
    split at hd
    · rename_i hk; cases hd; exact ⟨hk, rfl⟩
    · cases hd
  obtain ⟨new, n1, n2, n3, n4⟩ := compactScores_ok (zero := zero) (junkScore := junkScore)
    (junkPos := junkPos) (junkStack := junkStack) (vars := t.vars) (newVars := t'.vars) ho
    (m := mapIdx (finalImports t (compactLiterals t)) (clearExports t (compactLiterals t)))
    (fun v hc => (hv v hc).1)
    (fun v d hv hd => by
      obtain ⟨a, b⟩ := hmap v d hv hd
      rw [b, hm.vars]; exact rank_lt t a hv)
    (fun v w d hv hw h4 h5 => by
      obtain ⟨a1, a2⟩ := hmap v d hv h4
      obtain ⟨b1, b2⟩ := hmap w d hw h5
      exact rank_inj a1 b1 (by rw [← a2, ← b2]))
  refine ⟨new, n1, n2, fun v v' hv1 hv' he => ?_⟩
  have hv2 := hv'
  rw [hm.vars] at hv2
  obtain ⟨x, g1, g2, g3⟩ := rank_onto hv2
  have hxv : x = v := by
    rw [← g3, hm.exports x g1 g2] at he
    exact hcons.inj x v g1 hv1 he
  subst hxv
  have hmx : mapIdx (finalImports t (compactLiterals t)) (clearExports t (compactLiterals t)) x = some v' := by
    rw [mapIdx_ok hcons hr g1, if_pos g2, g3]
  refine ⟨?_, n4 x v' hv1 hmx⟩
  have h6 := n3 v'
  rw [Bool.eq_iff_iff, h6]
  constructor
  · rintro ⟨w, w1, w2⟩
    obtain ⟨a1, a2⟩ := hmap w v' (hv w w1).1 w2
    rw [rank_inj g2 a1 (by rw [g3, a2])]; exact w1
  · exact fun hx => ⟨x, hx, hmx⟩

/-! ## A concrete case

External variables 1 to 7 are imported; 1 is eliminated, 2 is false, 5 is true, 7 is never
activated, 3, 4 and 6 are active and 6 is true on level one.  Clauses: `3 4`, `2 4 -6` and the
satisfied `3 5 6`. -/

/-- The variables. -/
def exNumbers : Tables :=
  let t := (List.range' 1 7).foldl Tables.importVar Tables.empty
  let t := (List.range 6).foldl Tables.activate t
  let t := t.eliminate 0 0
  let t := t.fix 3
  let t := t.fix 8
  t.assign 10 1

/-- The queue. -/
def exVarQueue : Queue :=
  (((Queue.mk 7 none none 0 none 0 (fun _ => none) (fun _ => none) fun _ => 0).enqueue
    (fun _ => false) 5).enqueue (fun _ => false) 2).enqueue (fun _ => false) 3

/-- The tables. -/
def exTables : Tables :=
  { exNumbers with
    queue := exVarQueue
    trail := [10]
    frames := [10]
    sweep := [5, 0]
    saved := fun v => if v = 5 then 1 else -1
    bins := fun a => if a = 4 then [6] else if a = 6 then [4] else []
    clauses := [⟨false, false, [2, 6, 11]⟩, ⟨false, false, [4, 8, 10]⟩] }

theorem exNumbers_run : Run exNumbers := by
  have imp : ∀ (k : Nat) (t : Tables), Run t → t.size ≤ k → 0 < k →
      Run (t.importVar k) ∧ (t.importVar k).size = k + 1 := fun k t h h1 h2 =>
    ⟨.importVar h h2 fun hc => by omega, by show max t.size (k + 1) = k + 1; omega⟩
  have h1 := imp 1 _ .empty (by decide) (by omega)
  have h2 := imp 2 _ h1.1 (by omega) (by omega)
  have h3 := imp 3 _ h2.1 (by omega) (by omega)
  have h4 := imp 4 _ h3.1 (by omega) (by omega)
  have h5 := imp 5 _ h4.1 (by omega) (by omega)
  have h6 := imp 6 _ h5.1 (by omega) (by omega)
  have h7 := (imp 7 _ h6.1 (by omega) (by omega)).1
  have a0 := Run.activate (v := 0) h7 (by decide) (by decide) (by decide)
  have a1 := Run.activate (v := 1) a0 (by decide) (by decide) (by decide)
  have a2 := Run.activate (v := 2) a1 (by decide) (by decide) (by decide)
  have a3 := Run.activate (v := 3) a2 (by decide) (by decide) (by decide)
  have a4 := Run.activate (v := 4) a3 (by decide) (by decide) (by decide)
  have a5 := Run.activate (v := 5) a4 (by decide) (by decide) (by decide)
  have b0 := Run.eliminate (v := 0) (pos := 0) a5 ⟨by decide, by decide⟩ (by decide)
  have b1 := Run.fix (l := 3) b0 ⟨by decide, by decide⟩ (by decide)
  have b2 := Run.fix (l := 8) b1 ⟨by decide, by decide⟩ (by decide)
  exact Run.assign (l := 10) (level := 1) b2 ⟨by decide, by decide⟩ (by decide) (by decide)

theorem exTables_run : Run exTables :=
  .other exNumbers_run ⟨rfl, rfl, rfl, rfl, rfl, rfl, rfl, fun _ => rfl⟩

theorem exVarQueue_inv : QInv exVarQueue [5, 2, 3] := by
  have h0 : QInv (Queue.mk 7 none none 0 none 0 (fun _ => none) (fun _ => none) fun _ => 0) [] := by
    refine ⟨⟨rfl, rfl, trivial, List.nodup_nil, ?_⟩, ⟨List.Pairwise.nil, ?_, ?_, ?_⟩, by decide, ?_, ?_⟩ <;> simp
  have h1 := Model.Queue.enqueue_spec h0 (v := 5) (by simp) (by decide) (assigned := fun _ => false) rfl
  have h2 := Model.Queue.enqueue_spec h1.1 (v := 2) (by simp) (by rw [h1.2.2]; decide)
    (assigned := fun _ => false) rfl
  have h3 := Model.Queue.enqueue_spec h2.1 (v := 3) (by simp) (by rw [h2.2.2, h1.2.2]; decide)
    (assigned := fun _ => false) rfl
  exact h3.1

theorem exTables_anchored : Anchored exTables := by
  refine ⟨by decide, by decide, ?_, by decide, ?_, ⟨_, exVarQueue_inv, by decide⟩, by decide⟩ <;> decide

theorem exTables_bins {a b : Nat} (h : b ∈ exTables.bins a) : a = 4 ∧ b = 6 ∨ a = 6 ∧ b = 4 := by
  have h : b ∈ (if a = 4 then [6] else if a = 6 then [4] else ([] : List Nat)) := h
  split at h
  · exact Or.inl ⟨‹_›, by simpa using h⟩
  · split at h
    · exact Or.inr ⟨‹_›, by simpa using h⟩
    · cases h

theorem exTables_watched : Watched exTables := by
  have hu : ∀ l, l < 12 → 2 ≤ l → Usable exTables l := by unfold Usable; decide
  refine ⟨fun a b h => ?_, fun a b h => ?_, fun a b h => ?_, fun c hc _ l hl => ?_, by decide⟩
  · rcases exTables_bins h with ⟨rfl, rfl⟩ | ⟨rfl, rfl⟩ <;> decide
  · rcases exTables_bins h with ⟨rfl, rfl⟩ | ⟨rfl, rfl⟩ <;> exact hu _ (by omega) (by omega)
  · rcases exTables_bins h with ⟨rfl, rfl⟩ | ⟨rfl, rfl⟩ <;> decide
  · have : ∀ c ∈ exTables.clauses, ∀ l ∈ c.lits, l < 12 ∧ 2 ≤ l := by decide
    exact hu l (this c hc l hl).1 (this c hc l hl).2

/-- All hypotheses hold for the concrete tables; the number of variables goes from seven to
four, values of external literals are as before, and the clause of three literals became
binary, because 2 is false. -/
example : Run exTables ∧ Anchored exTables ∧ Watched exTables := ⟨exTables_run, exTables_anchored, exTables_watched⟩

example : (sparseCollect exTables).map (fun t => (t.vars, t.clauses.length, t.trail)) = some (4, 0, [6]) := by
  decide +kernel

example : (sparseCollect exTables).map (fun t => (List.range 8).map fun e : Nat => (t.value e, t.value (- e))) =
    some [(0, 0), (0, 0), (-2, -2), (0, 0), (0, 0), (5, 5), (6, 6), (0, 0)] := by decide +kernel

example : (sparseCollect exTables).map (fun t => ((List.range 4).map t.exports, (List.range 8).map t.bins)) =
    some ([2, 3, 4, 6], [[], [], [4], [], [2, 7], [], [], [4]]) := by decide +kernel

end Verif.Props
