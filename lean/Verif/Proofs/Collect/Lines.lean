import Verif.Proofs.Collect.Main

/-! # Proof lines of garbage collection -/

namespace Verif.Core

open Verif.Spec

/-- The lines written for one clause. -/
def Solver.Block (s : Solver) (b : List Spec.Line) : Prop :=
  (∃ c, s.formula c ∧ s.RootSat c ∧ b = [.delete c]) ∨
  ∃ c, s.formula c ∧ ¬ s.RootSat c ∧ b = [.add (s.reduct c), .delete c]

/-- The lines in `t` after those in `s` are such blocks. -/
def Blocks (s : Solver) (t : Solver) : Prop :=
  ∃ bs : List (List Spec.Line), t.proof = s.proof ++ bs.flatten ∧ ∀ b ∈ bs, s.Block b

theorem Blocks.snoc {s t t' : Solver} (h : Blocks s t) {b : List Spec.Line} (hb : s.Block b)
    (e : t'.proof = t.proof ++ b) : Blocks s t' := by
  obtain ⟨bs, h1, h2⟩ := h
  refine ⟨bs ++ [b], by rw [e, h1]; simp, fun x hx => ?_⟩
  rcases List.mem_append.1 hx with hx | hx
  · exact h2 x hx
  · rw [List.mem_singleton.1 hx]; exact hb

theorem Blocks.same {s t t' : Solver} (h : Blocks s t) (e : t'.proof = t.proof) : Blocks s t' := by
  unfold Blocks at *
  rw [e]; exact h

theorem binaryReason_proof (s : Solver) (c : List Nat) (b : Bool) : (s.binaryReason c b).proof = s.proof := by
  unfold Solver.binaryReason
  split
  · split <;> rfl
  · rfl

theorem Sweeping.blocks {s t : Solver} {start n : Nat} (hs : Settled s) (h : Sweeping s t start n)
    (hb : Blocks s t) : Blocks s (sweepClause t (s.clause n) (s.isReason n)) := by
  unfold sweepClause
  have htt := h.framed.trailInv hs.inv.trail
  by_cases hg : (s.clause n).garbage = true
  · rw [if_pos hg]; exact hb
  rw [if_neg hg]
  have hl : s.Live n := by simpa [Solver.Live] using hg
  by_cases hr : s.RootSat (s.clause n).lits
  · rw [if_pos ((rootSat_any htt _).2 ((h.framed.rootSat _).2 hr))]
    exact hb.snoc (.inl ⟨_, .inl ⟨n, hl, rfl⟩, hr, rfl⟩) rfl
  rw [if_neg fun h' => hr ((h.framed.rootSat _).1 ((rootSat_any htt _).1 h'))]
  have he : ((s.clause n).lits.filter fun l => Decidable.decide (¬ t.fixed l < 0)) =
      s.reduct (s.clause n).lits := h.framed.reduct _
  simp only [he]
  have key : (match s.reduct (s.clause n).lits with
      | [a, b] => (t.watchBinary a b).binaryReason (s.reduct (s.clause n).lits) (s.isReason n)
      | _ => t.placeClause { s.clause n with lits := s.reduct (s.clause n).lits, searched := 2 }
          (s.isReason n)).proof = t.proof := by
    split
    · rw [binaryReason_proof]; rfl
    · exact (placeClause_rest _ _ _).2.2.2
  split
  · refine hb.snoc (.inr ⟨_, .inl ⟨n, hl, rfl⟩, hr, rfl⟩) ?_
    exact (congrArg (fun x => x ++ [Spec.Line.add (s.reduct (s.clause n).lits)] ++
      [Spec.Line.delete (s.clause n).lits]) key).trans (by simp)
  · exact hb.same key

theorem Sweeping.blocks_loop {s : Solver} {start : Nat} (hs : Settled s) :
    ∀ (cs : List Clause) (n : Nat) (t : Solver), start ≤ n → n ≤ s.arena.length → s.arena.drop n = cs →
    Sweeping s t start n → Blocks s t → Blocks s
      ((cs.mapIdx fun i c => (c, s.isReason (n + i))).foldl (fun t p => sweepClause t p.1 p.2) t)
  | [], n, t, _, hle, hd, h, hb => hb
  | c :: cs, n, t, h1, hle, hd, h, hb => by
    have hn : n < s.arena.length := by
      refine Nat.lt_of_not_le fun h' => ?_
      rw [List.drop_eq_nil_iff.2 h'] at hd; cases hd
    have hc : c = s.clause n := by
      rw [List.drop_eq_getElem_cons hn] at hd
      have := (List.cons.inj hd).1
      have h2 := clause_get hn
      rw [List.getElem?_eq_getElem hn] at h2
      rw [← this]; exact Option.some.inj h2
    have hd' : s.arena.drop (n + 1) = cs := by
      rw [List.drop_eq_getElem_cons hn] at hd
      exact (List.cons.inj hd).2
    rw [List.mapIdx_cons, List.foldl_cons]
    have := Sweeping.blocks_loop (start := start) hs cs (n + 1) (sweepClause t c (s.isReason (n + 0)))
      (by omega) hn hd' (by rw [hc]; exact h.step hs h1) (by rw [hc]; exact h.blocks hs hb)
    simp only [Nat.add_assoc, Nat.add_comm 1] at this
    exact this

theorem flush_blocks {s : Solver} (ht : TrailInv s) (start : Nat) : Blocks s (s.flushWatches start) := by
  refine ⟨((List.range (2 * s.vars)).flatMap s.flushLines).map fun x => [x], ?_, fun b hb => ?_⟩
  · show s.proof ++ _ = _
    congr 1
    generalize (List.range (2 * s.vars)).flatMap s.flushLines = ls
    induction ls with
    | nil => simp
    | cons a ls ih => rw [List.map_cons, List.flatten_cons, ← ih]; rfl
  · obtain ⟨x, hx, rfl⟩ := List.mem_map.1 hb
    obtain ⟨l, _, hx⟩ := List.mem_flatMap.1 hx
    obtain ⟨w, hw, he⟩ := List.mem_filterMap.1 hx
    cases w with
    | large b r => cases he
    | binary o =>
      simp only at he
      split at he
      · rename_i hc
        cases he
        refine .inl ⟨[l, o], .inr (.inl ⟨l, o, hw, rfl⟩), ?_, rfl⟩
        have := of_decide_eq_true hc.1
        rw [fixed_pos ht, fixed_pos ht] at this
        rcases this with h | h
        · exact ⟨l, by simp, h⟩
        · exact ⟨o, by simp, h⟩
      · cases he

theorem Settled.blocks {s : Solver} {start : Nat} (hs : Settled s) (hst : start ≤ s.arena.length) :
    Blocks s (s.sparseCollect start) := by
  have h := (hs.sweep hst).move hs
  have hb : Blocks s ((s.flushWatches start).sweepGarbage start) :=
    Sweeping.blocks_loop hs _ start _ (Nat.le_refl _) hst rfl (Sweeping.init hs hst)
      ((flush_blocks hs.inv.trail start).same rfl)
  have g := h.1.rewatch hs
  exact (hb.same h.2).same g.proof

end Verif.Core
