import Verif.Proofs.Collect.Move

/-! # Watching the collected clauses -/

namespace Verif.Core

open Verif.Spec

/-- The two watched literals `a` and `b` of a clause are the best ones. -/
structure Best (s : Solver) (a b : Nat) (rest : List Nat) : Prop where
  first : s.values a < 0 → ∀ x ∈ a :: b :: rest, s.values x < 0 ∧ s.lev x ≤ s.lev a
  second : s.values b < 0 → ∀ x ∈ b :: rest, s.values x < 0 ∧ s.lev x ≤ s.lev b

/-- The state while the clauses from `start` to `n` of `t` are watched. -/
structure Rewatching (t u : Solver) (start n : Nat) : Prop where
  framed : Framed t u
  assigned : u.assigned = t.assigned
  last : u.lastLearned = t.lastLearned
  proof : u.proof = t.proof
  length : u.arena.length = t.arena.length
  others : ∀ r, r < start ∨ n ≤ r → u.clause r = t.clause r
  done : ∀ r, start ≤ r → r < n → ∃ a b rest, u.clause r =
    { t.clause r with lits := a :: b :: rest, searched := 2 } ∧
    (a :: b :: rest).Perm (t.clause r).lits ∧ Best t a b rest
  watches : ∀ w x, x ∈ u.watches w ↔ x ∈ t.watches w ∨ ∃ r a b rest, start ≤ r ∧ r < n ∧
    (u.clause r).lits = a :: b :: rest ∧ ((w = a ∧ x = .large b r) ∨ (w = b ∧ x = .large a r))
  once : ∀ w, ((u.watches w).filterMap Watch.ref?).Nodup

theorem Rewatching.step {t u : Solver} {start n : Nat} (ht : TrailInv t)
    (hlarge : ∀ w b r, Watch.large b r ∈ t.watches w → r < start)
    (hsize : 3 ≤ (t.clause n).lits.length) (hnodup : (t.clause n).lits.Nodup)
    (h : Rewatching t u start n) (hst : start ≤ n) (hn : n < t.arena.length) :
    Rewatching t (rewatchClause u n) start (n + 1) := by
  have hun : n < u.arena.length := by rw [h.length]; exact hn
  have hc : u.clause n = t.clause n := h.others n (.inr (Nat.le_refl _))
  obtain ⟨a, b, rest, e, hp, hb1, hb2⟩ := sortLiterals_ok (s := u) (h.framed.trailInv ht)
    (c := (u.clause n).lits) (by rw [hc]; omega)
  rw [hc] at hp
  have hne : a ≠ b := by
    have := hp.nodup_iff.2 hnodup
    intro e'
    rw [e'] at this
    simp at this
  have hbest : Best t a b rest := by
    constructor
    · intro h1 x hx
      have := hb1 (by rw [h.framed.values]; exact h1) x (by rw [hc]; exact hp.mem_iff.1 hx)
      rw [h.framed.values, h.framed.lev, h.framed.lev] at this
      exact this
    · intro h1 x hx
      have := hb2 (by rw [h.framed.values]; exact h1) x hx
      rw [h.framed.values, h.framed.lev, h.framed.lev] at this
      exact this
  have hdef : rewatchClause u n = ((u.setClause n { u.clause n with lits := a :: b :: rest, searched := 2 }).watchReference
      a b n) := by
    unfold rewatchClause
    simp only
    rw [e]
  rw [hdef]
  generalize hu' : (u.setClause n { u.clause n with lits := a :: b :: rest, searched := 2 }) = u'
  have hcl : ∀ r, u'.clause r = if r = n then { t.clause n with lits := a :: b :: rest, searched := 2 }
      else u.clause r := by
    intro r
    rw [← hu', setClause_clause r hun, hc]
  have hcl' : ∀ r, (u'.watchReference a b n).clause r = u'.clause r := fun _ => rfl
  have hw' : u'.watches = u.watches := by rw [← hu']; rfl
  refine ⟨?_, ?_, ?_, ?_, ?_, fun r hr => ?_, fun r h1 h2 => ?_, fun w x => ?_, fun w => ?_⟩
  · have h1 : Framed u (u'.watchReference a b n) := by
      rw [← hu']
      exact ⟨rfl, rfl, rfl, rfl, rfl, rfl, rfl, rfl, rfl, rfl, rfl, fun _ => rfl, fun _ => rfl, rfl, rfl, rfl⟩
    exact h.framed.trans h1
  · rw [← hu']; exact h.assigned
  · rw [← hu']; exact h.last
  · rw [← hu']; exact h.proof
  · rw [← hu', ← h.length]
    show (u.arena.set n _).length = _
    rw [List.length_set]
  · rw [hcl', hcl, if_neg (by omega)]
    exact h.others r (by omega)
  · rw [hcl', hcl]
    rcases lt_succ_cases h2 with h2 | rfl
    · rw [if_neg (by omega)]; exact h.done r h1 h2
    · rw [if_pos rfl]
      exact ⟨a, b, rest, rfl, hp, hbest⟩
  · rw [watchReference_mem _ hne, hw', h.watches]
    simp only [hcl', hcl]
    constructor
    · rintro ((g | ⟨r, a', b', rest', g1, g2, g3, g4⟩) | ⟨rfl, g⟩ | ⟨rfl, g⟩)
      · exact .inl g
      · exact .inr ⟨r, a', b', rest', g1, by omega, by rw [if_neg (by omega)]; exact g3, g4⟩
      · exact .inr ⟨n, w, b, rest, hst, by omega, by rw [if_pos rfl], .inl ⟨rfl, g⟩⟩
      · exact .inr ⟨n, a, w, rest, hst, by omega, by rw [if_pos rfl], .inr ⟨rfl, g⟩⟩
    · rintro (g | ⟨r, a', b', rest', g1, g2, g3, g4⟩)
      · exact .inl (.inl g)
      · rcases lt_succ_cases g2 with g2 | rfl
        · rw [if_neg (by omega)] at g3
          exact .inl (.inr ⟨r, a', b', rest', g1, g2, g3, g4⟩)
        · rw [if_pos rfl] at g3
          cases g3
          exact .inr g4
  · rw [watchReference_refs _ hne, hw']
    split
    · rw [List.nodup_append]
      refine ⟨h.once w, by simp, fun x hx y hy => ?_⟩
      rw [List.mem_singleton.1 hy]
      rintro rfl
      obtain ⟨v, hv, hr⟩ := List.mem_filterMap.1 hx
      cases v with
      | binary o => cases hr
      | large b' r' =>
        cases hr
        rcases (h.watches w _).1 hv with g | ⟨r, a', b', rest', g1, g2, g3, g4⟩
        · have := hlarge _ _ _ g; omega
        · rcases g4 with ⟨_, g4⟩ | ⟨_, g4⟩ <;> cases g4 <;> omega
    · rw [List.append_nil]; exact h.once w

theorem Rewatching.loop {t : Solver} {start : Nat} (ht : TrailInv t)
    (hlarge : ∀ w b r, Watch.large b r ∈ t.watches w → r < start)
    (hsize : ∀ r, start ≤ r → r < t.arena.length → 3 ≤ (t.clause r).lits.length ∧ (t.clause r).lits.Nodup) :
    ∀ (k n : Nat) (u : Solver), start ≤ n → n + k = t.arena.length → Rewatching t u start n →
    Rewatching t ((List.range' n k).foldl rewatchClause u) start t.arena.length
  | 0, n, u, _, hk, h => by
    have : n = t.arena.length := by omega
    rw [← this]; exact h
  | k + 1, n, u, h1, hk, h => by
    rw [List.range'_succ, List.foldl_cons]
    have hn : n < t.arena.length := by omega
    obtain ⟨g1, g2⟩ := hsize n h1 hn
    exact Rewatching.loop ht hlarge hsize k (n + 1) _ (by omega) (by omega)
      (h.step ht hlarge g1 g2 h1 hn)

theorem Sweeping.rewatch {s t : Solver} {start : Nat} (hs : Settled s)
    (h : Sweeping s t start s.arena.length) :
    Rewatching t (t.rewatchClauses start) start t.arena.length := by
  unfold Solver.rewatchClauses
  refine Rewatching.loop (h.framed.trailInv hs.inv.trail) (fun w b r hw => ((h.large w b r).1 hw).2.2)
    (fun r h1 h2 => ?_) _ start t (Nat.le_refl _) (by have := h.len; omega)
    ⟨.refl _, rfl, rfl, rfl, rfl, fun _ _ => rfl, fun r h1 h2 => by omega, fun w x => ?_, h.once⟩
  · obtain ⟨r', _, _, g1, g2, g3⟩ := h.back r _ h1 (clause_get h2)
    rw [g2]
    exact ⟨g3, (hs.inv.clause.nodup r' g1.1).filter _⟩
  · constructor
    · exact .inl
    · rintro (g | ⟨r, _, _, _, g1, g2, _⟩)
      · exact g
      · omega

end Verif.Core
