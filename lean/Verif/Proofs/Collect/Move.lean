import Verif.Proofs.Collect.Sweep

/-! # Moving redundant clauses to the end -/

namespace Verif.Core

open Verif.Spec

theorem placeClause_framed (s : Solver) (c : Clause) (b : Bool) : Framed s (s.placeClause c b) := by
  have h0 : Framed s ({ s with arena := s.arena ++ [c] } : Solver) :=
    ⟨rfl, rfl, rfl, rfl, rfl, rfl, rfl, rfl, rfl, rfl, rfl, fun _ => rfl, fun _ => rfl, rfl, rfl, rfl⟩
  unfold Solver.placeClause
  simp only
  split
  · split
    · exact h0.trans (setReason_framed _ _ _)
    · exact h0
  · exact h0

theorem placeClause_rest (s : Solver) (c : Clause) (b : Bool) :
    (s.placeClause c b).arena = s.arena ++ [c] ∧ (s.placeClause c b).watches = s.watches ∧
    (s.placeClause c b).lastLearned = s.lastLearned ∧ (s.placeClause c b).proof = s.proof := by
  unfold Solver.placeClause
  simp only
  split
  · split <;> exact ⟨rfl, rfl, rfl, rfl⟩
  · exact ⟨rfl, rfl, rfl, rfl⟩

theorem placeClause_reason (s : Solver) (c : Clause) (b : Bool) (v : Nat) :
    ((∀ m, b = true → s.forced c.lits = some m → m / 2 ≠ v) ∧
      ((s.placeClause c b).assigned v).reason = (s.assigned v).reason) ∨
    ∃ m, b = true ∧ s.forced c.lits = some m ∧ m / 2 = v ∧
      ((s.placeClause c b).assigned v).reason = .large s.arena.length := by
  unfold Solver.placeClause
  simp only
  cases b with
  | false => rw [if_neg (by decide)]; exact .inl ⟨fun _ h => absurd h (by decide), rfl⟩
  | true =>
    rw [if_pos rfl]
    cases hf : s.forced c.lits with
    | none => exact .inl ⟨fun _ _ h => absurd h (by simp), rfl⟩
    | some m =>
      simp only
      rw [setReason_reason]
      by_cases e : m / 2 = v
      · exact .inr ⟨m, by simp, rfl, e, by rw [if_pos e.symm]⟩
      · refine .inl ⟨fun m' _ h => ?_, by rw [if_neg (Ne.symm e)]⟩
        cases h; exact e

/-- Placing a list of clauses. -/
structure Placed (s t : Solver) (cs : List (Clause × Bool)) : Prop where
  framed : Framed s t
  arena : t.arena = s.arena ++ cs.map (·.1)
  watches : t.watches = s.watches
  last : t.lastLearned = s.lastLearned
  proof : t.proof = s.proof
  reason : ∀ v, ((∀ p ∈ cs, ∀ m, p.2 = true → s.forced p.1.lits = some m → m / 2 ≠ v) ∧
      (t.assigned v).reason = (s.assigned v).reason) ∨
    ∃ i c m, cs[i]? = some (c, true) ∧ s.forced c.lits = some m ∧ m / 2 = v ∧
      (t.assigned v).reason = .large (s.arena.length + i)

theorem place_fold : ∀ (cs : List (Clause × Bool)) (s : Solver),
    Placed s (cs.foldl (fun t p => t.placeClause p.1 p.2) s) cs
  | [], s => ⟨.refl s, by simp, rfl, rfl, rfl, fun _ => .inl ⟨fun _ h => absurd h (by simp), rfl⟩⟩
  | (c, b) :: cs, s => by
    rw [List.foldl_cons]
    have hf := placeClause_framed s c b
    obtain ⟨e1, e2, e3, e4⟩ := placeClause_rest s c b
    have ih := place_fold cs (s.placeClause c b)
    refine ⟨hf.trans ih.framed, by rw [ih.arena, e1]; simp, by rw [ih.watches, e2],
      by rw [ih.last, e3], by rw [ih.proof, e4], fun v => ?_⟩
    rcases ih.reason v with ⟨h1, h2⟩ | ⟨i, c', m, h1, h2, h3, h4⟩
    · rcases placeClause_reason s c b v with ⟨g1, g2⟩ | ⟨m, g1, g2, g3, g4⟩
      · refine .inl ⟨fun p hp m hb hm => ?_, h2.trans g2⟩
        rcases List.mem_cons.1 hp with rfl | hp
        · exact g1 m hb hm
        · exact h1 p hp m hb (by rw [hf.forced]; exact hm)
      · exact .inr ⟨0, c, m, by rw [g1]; rfl, g2, g3, h2.trans g4⟩
    · refine .inr ⟨i + 1, c', m, by simpa using h1, by rw [← hf.forced]; exact h2, h3, ?_⟩
      rw [h4, e1, List.length_append, List.length_singleton]
      congr 1
      omega

theorem mem_marked {s : Solver} {first : Nat} {p : Clause × Bool} :
    p ∈ s.marked first ↔ ∃ i, s.arena[first + i]? = some p.1 ∧ p.2 = s.isReason (first + i) := by
  unfold Solver.marked
  rw [List.mem_iff_getElem?]
  simp only [List.getElem?_mapIdx, List.getElem?_drop]
  constructor
  · rintro ⟨i, h⟩
    obtain ⟨c, h1, h2⟩ := Option.map_eq_some_iff.1 h
    rw [← h2]; exact ⟨i, h1, rfl⟩
  · rintro ⟨i, h1, h2⟩
    refine ⟨i, ?_⟩
    rw [h1, ← h2]; rfl

/-- The reasons among the swept clauses. -/
theorem Sweeping.marked {s t : Solver} {start : Nat} (hs : Settled s)
    (h : Sweeping s t start s.arena.length) {first : Nat} (hf : start ≤ first) {c : Clause}
    (hc : (c, true) ∈ t.marked first) :
    ∃ l r i, s.values l = 1 ∧ (s.assigned (l / 2)).reason = .large r ∧ start ≤ r ∧
      r < s.arena.length ∧ c = s.shrunk r ∧ s.forced c.lits = some l ∧
      (t.assigned (l / 2)).reason = .large (first + i) := by
  obtain ⟨i, hi, hr⟩ := mem_marked.1 hc
  simp only at hi hr
  unfold Solver.isReason at hr
  obtain ⟨l, hl, he⟩ := List.any_eq_true.1 hr.symm
  have he : (t.assigned (l / 2)).reason = .large (first + i) := by simpa using he
  rw [h.framed.trail] at hl
  have hv := hs.inv.trail.tval l hl
  by_cases hx : ∀ r, (s.assigned (l / 2)).reason = .large r → r < start ∨ s.arena.length ≤ r
  · have h1 := h.keptReason l hv hx
    rw [he] at h1
    have h2 := clause_lt (hs.inv.forces hv h1.symm).1
    have := hx _ h1.symm
    omega
  · obtain ⟨r, hx⟩ := Classical.not_forall.1 hx
    obtain ⟨hr1, hx⟩ := Classical.not_imp.1 hx
    have g1 : start ≤ r := by omega
    have g2 : r < s.arena.length := by omega
    have hfo := ((hs.inv.forces hv hr1).2.1.reduct hs.inv.trail).forced hs.inv.trail
    rcases h.newReason l r hv hr1 g1 g2 with ⟨r', _, k2, k3⟩ | ⟨o, k1, _⟩
    · rw [he] at k2
      cases k2
      rw [hi] at k3
      cases k3
      exact ⟨l, r, i, hv, hr1, g1, g2, rfl, hfo, he⟩
    · rw [he] at k1; cases k1

theorem perm_partition {α : Type} (p : α → Bool) (l : List α) (x : α) :
    x ∈ l.filter (fun a => !p a) ++ l.filter p ↔ x ∈ l := by
  rw [List.mem_append, List.mem_filter, List.mem_filter]
  cases p x <;> simp

theorem Sweeping.move {s t : Solver} {start : Nat} (hs : Settled s)
    (h : Sweeping s t start s.arena.length) :
    Sweeping s (t.moveRedundant start) start s.arena.length ∧
    (t.moveRedundant start).proof = t.proof := by
  unfold Solver.moveRedundant
  simp only
  generalize hfirst : start + (t.arena.drop start).findIdx (·.redundant) = first
  by_cases hany : ((t.arena.drop first).any (!·.redundant)) = true
  case neg => rw [if_neg hany]; exact ⟨h, rfl⟩
  rw [if_pos hany]
  have hf1 : start ≤ first := by omega
  have hf2 : first ≤ t.arena.length := by
    have := List.findIdx_le_length (p := fun c : Clause => c.redundant) (xs := t.arena.drop start)
    rw [List.length_drop] at this
    have := h.len
    omega
  generalize hcs : (t.marked first).filter (!·.1.redundant) ++ (t.marked first).filter (·.1.redundant) = cs
  have hmem : ∀ p, p ∈ cs ↔ p ∈ t.marked first := fun p => by
    rw [← hcs]; exact perm_partition (fun p : Clause × Bool => p.1.redundant) _ p
  have hp := place_fold cs { t with arena := t.arena.take first }
  generalize cs.foldl (fun t p => t.placeClause p.1 p.2) { t with arena := t.arena.take first } = u at hp
  obtain ⟨p1, p2, p3, p4, p5, p6⟩ := hp
  have htl : (t.arena.take first).length = first := by rw [List.length_take]; omega
  simp only at p2 p3 p4 p5 p6
  have hfr : Framed s u := by
    have : Framed t { t with arena := t.arena.take first } :=
      ⟨rfl, rfl, rfl, rfl, rfl, rfl, rfl, rfl, rfl, rfl, rfl, fun _ => rfl, fun _ => rfl, rfl, rfl, rfl⟩
    exact (h.framed.trans this).trans p1
  have hforced : ∀ c, ({ t with arena := t.arena.take first } : Solver).forced c = s.forced c :=
    fun c => h.framed.forced c
  simp only [hforced] at p6
  have hlow : ∀ r, r < first → u.arena[r]? = t.arena[r]? := by
    intro r hr
    rw [p2, List.getElem?_append_left (by omega), List.getElem?_take, if_pos hr]
  have hhigh : ∀ i, u.arena[first + i]? = cs[i]?.map (·.1) := by
    intro i
    rw [p2, List.getElem?_append_right (by omega), htl, List.getElem?_map]
    congr 2; omega
  have hback : ∀ (r : Nat) (c : Clause), start ≤ r → u.arena[r]? = some c → ∃ r' : Nat, start ≤ r' ∧ t.arena[r']? = some c := by
    intro r c hr hc
    by_cases hlt : r < first
    · rw [hlow r hlt] at hc; exact ⟨r, hr, hc⟩
    · obtain ⟨i, rfl⟩ : ∃ i, r = first + i := ⟨r - first, by omega⟩
      rw [hhigh] at hc
      obtain ⟨p, hp, rfl⟩ := Option.map_eq_some_iff.1 hc
      obtain ⟨j, hj, _⟩ := mem_marked.1 ((hmem p).1 (List.mem_of_getElem? hp))
      exact ⟨first + j, by omega, hj⟩
  have hfwd : ∀ (r : Nat) (c : Clause), start ≤ r → t.arena[r]? = some c → ∃ r' : Nat, start ≤ r' ∧ u.arena[r']? = some c := by
    intro r c hr hc
    by_cases hlt : r < first
    · exact ⟨r, hr, by rw [hlow r hlt]; exact hc⟩
    · have hm : (c, t.isReason r) ∈ cs :=
        (hmem _).2 (mem_marked.2 ⟨r - first, by rw [show first + (r - first) = r by omega]; exact ⟨hc, rfl⟩⟩)
      obtain ⟨i, hi⟩ := List.mem_iff_getElem?.1 hm
      exact ⟨first + i, by omega, by rw [hhigh, hi]; rfl⟩
  -- entries force literals whose reasons are collected clauses
  have hentry : ∀ c m, (c, true) ∈ cs → s.forced c.lits = some m → ∀ l, s.values l = 1 → m / 2 = l / 2 →
      ∃ r i, (s.assigned (l / 2)).reason = .large r ∧ start ≤ r ∧ r < s.arena.length ∧
        c = s.shrunk r ∧ (t.assigned (l / 2)).reason = .large (first + i) := by
    intro c m hc hm l hv e
    obtain ⟨l', r, i, g1, g2, g3, g4, g5, g6, g7⟩ := h.marked hs hf1 ((hmem _).1 hc)
    rw [hm] at g6
    cases g6
    have : m = l := true_unique hs.inv.trail g1 hv e
    subst this
    exact ⟨r, i, g2, g3, g4, g5, g7⟩
  refine ⟨⟨hfr, ?_, ?_, ?_, ?_, by rw [p3]; exact h.bins, by rw [p3]; exact h.large,
    by rw [p3]; exact h.once, by rw [p4]; exact h.last, ?_, ?_⟩, p5⟩
  · rw [p2, List.length_append, htl]; omega
  · intro r hr; rw [hlow r (by omega)]; exact h.low r hr
  · intro r c hr hc
    obtain ⟨r', g1, g2⟩ := hback r c hr hc
    exact h.back r' c g1 g2
  · intro r h1 h2 h3 h4
    obtain ⟨r', g1, g2⟩ := h.fwd r h1 h2 h3 h4
    exact hfwd r' _ g1 g2
  · intro l hv hr
    rcases p6 (l / 2) with ⟨_, k⟩ | ⟨i, c, m, k1, k2, k3, _⟩
    · exact k.trans (h.keptReason l hv hr)
    · obtain ⟨r, _, g1, g2, g3, _⟩ := hentry c m (List.mem_of_getElem? k1) k2 l hv k3
      have := hr r g1
      omega
  · intro l r hv hr h1 h2
    rcases p6 (l / 2) with ⟨k1, k⟩ | ⟨i, c, m, k1, k2, k3, k4⟩
    · rcases h.newReason l r hv hr h1 h2 with ⟨r', g1, g2, g3⟩ | ⟨o, g1, g2⟩
      · by_cases hlt : r' < first
        · exact .inl ⟨r', g1, k.trans g2, by rw [hlow r' hlt]; exact g3⟩
        · have hre : t.isReason r' = true := by
            unfold Solver.isReason
            rw [List.any_eq_true]
            refine ⟨l, ?_, by simpa using g2⟩
            rw [h.framed.trail]
            by_cases hm : l ∈ s.trail
            · exact hm
            · rw [hs.inv.reason.root l hv (hs.inv.trail.flushed l hv hm)] at hr; cases hr
          have hm : (s.shrunk r, true) ∈ cs :=
            (hmem _).2 (mem_marked.2 ⟨r' - first, by
              rw [show first + (r' - first) = r' by omega]; exact ⟨g3, hre.symm⟩⟩)
          have hfo := ((hs.inv.forces hv hr).2.1.reduct hs.inv.trail).forced hs.inv.trail
          exact absurd rfl (k1 _ hm l rfl hfo)
      · exact .inr ⟨o, k.trans g1, g2⟩
    · obtain ⟨r2, _, g1, g2, g3, g4, _⟩ := hentry c m (List.mem_of_getElem? k1) k2 l hv k3
      rw [hr] at g1
      cases g1
      refine .inl ⟨_, ?_, k4, ?_⟩
      · rw [htl]; omega
      · rw [htl, hhigh, k1, ← g4]; rfl

end Verif.Core
