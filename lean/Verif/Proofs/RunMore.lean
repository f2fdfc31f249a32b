import Verif.Proofs.Answers

/-! # Further invariants of runs -/

namespace Verif.Core

open Verif.Spec

theorem natAbs_export {a : Api} {l v : Nat} (h : l / 2 = v) :
    (a.exportLiteral l).natAbs = (a.exportLiteral (2 * v)).natAbs := by
  subst h
  unfold Api.exportLiteral
  have e : 2 * (l / 2) / 2 = l / 2 := by omega
  have e2 : 2 * (l / 2) % 2 = 0 := by omega
  simp only [e, e2]
  split
  · rfl
  · split
    · simp
    · simp

/-- What holds also after a search. -/
structure RunMore (cs : List Call) (a : Api) : Prop where
  proof : ∃ orig db, orig.map (List.map a.exportLiteral) = clausesOf (addedInts cs) ∧
    (apiBase orig).R a.s.vars a.s.proof db
  active : ∀ l, a.s.values l ≠ 0 → a.s.Valid l
  mentioned : (∀ n, Call.reserve n ∉ cs) → ∀ v, v < a.s.vars → a.s.removed v = false →
    ∃ x ∈ addedInts cs, x.natAbs = (a.exportLiteral (2 * v)).natAbs

theorem RunInv.more {cs : List Call} {a : Api} (h : RunInv cs a) (h0 : a.searches = 0)
    (hm : (∀ n, Call.reserve n ∉ cs) → ∀ v, v < a.s.vars → a.s.removed v = false →
      ∃ x ∈ addedInts cs, x.natAbs = (a.exportLiteral (2 * v)).natAbs) : RunMore cs a := by
  obtain ⟨orig, hA, h1, _⟩ := h.loaded h0
  obtain ⟨db, h2, _⟩ := hA.loaded.proof
  exact ⟨⟨orig, db, h1, h2⟩, hA.loaded.active, hm⟩

theorem addLiteral_solver (a : Api) (e : Int) :
    (a.addLiteral e).s = (a.importLiteral e).1.s ∧
    (a.addLiteral e).exports = (a.importLiteral e).1.exports := by
  unfold Api.addLiteral
  generalize a.importLiteral e = p
  obtain ⟨b, ilit⟩ := p
  simp only
  repeat' (first | exact ⟨rfl, rfl⟩ | split)

theorem reserve_more {a b : Api} {n : Int} (h : ImportInv a) (hr : a.reserve n = .ok b) :
    a.s.vars ≤ b.s.vars ∧ b.s.proof = a.s.proof ∧ b.s.values = a.s.values ∧
    ∀ v, a.s.removed v = false → b.s.removed v = false := by
  unfold Api.reserve at hr
  split at hr
  · cases hr
  · split at hr
    · cases hr
    · split at hr
      · injection hr with e; subst e
        exact ⟨Nat.le_refl _, rfl, rfl, fun _ h => h⟩
      · obtain ⟨h1, h2, h3⟩ := importAll_ok (List.range n.natAbs) h
        simp only at hr
        generalize List.foldl _ a (List.range n.natAbs) = c at *
        split at hr
        · cases hr
        · injection hr with e; subst e
          obtain ⟨rem, ua, e, hrem⟩ := activateAll_eq ((List.range n.natAbs).map (2 * ·)) c.s
          simp only
          rw [e]
          obtain ⟨m, i, ex, hn, rfl⟩ := h2
          exact ⟨hn, rfl, rfl, fun v hv => (hrem v).2 (.inl hv)⟩

theorem run_more {o : Options} {t : Bool} {p e : Nat} {cs : List Call} {a : Api}
    (h : Run (Api.init o t p e) cs a) : RunMore cs a := by
  induction h with
  | nil => exact (run_inv .nil).more rfl fun _ v hv => by simp [Api.init] at hv
  | @snoc cs b c b' ret hb hfair hstep ih =>
    have hI := run_inv hb
    have hI' := run_inv (.snoc hb hfair hstep)
    have hcs : (∀ n, Call.reserve n ∉ cs ++ [c]) → ∀ n, Call.reserve n ∉ cs :=
      fun h n hn => h n (List.mem_append.2 (.inl hn))
    cases hstep with
    | @add e _ ha =>
      have hsplit : addedInts (cs ++ [.add e]) = addedInts cs ++ [e] := addedInts_append cs _
      unfold Api.add at ha
      split at ha
      · cases ha
      · rename_i h0
        have h0 : b.searches = 0 := by simpa using h0
        obtain ⟨orig, hA, hcl, hpe⟩ := hI.loaded h0
        split at ha
        · rename_i hne
          split at ha
          · injection ha with e1; subst e1
            obtain ⟨_, _, _, _, _, _, hs0, _⟩ := addLiteral_ok hA hne
            refine hI'.more (hs0.trans h0) fun hr v _ hrem => ?_
            obtain ⟨i1, i2, _⟩ := importLiteral_ok hA.imports hne
            obtain ⟨e1, e2⟩ := addLiteral_solver b e
            rw [e1] at hrem
            obtain ⟨n, im, ex, hn, hg⟩ := i2
            have hrem' : b.s.removed v = false := by rw [hg] at hrem; exact hrem
            have hv' : v < b.s.vars := by
              apply Decidable.byContradiction
              intro hv'
              rw [hA.loaded.fresh v (by omega)] at hrem'
              cases hrem'
            obtain ⟨x, hx, hx'⟩ := ih.mentioned (hcs hr) v hv' hrem'
            refine ⟨x, by rw [hsplit]; exact List.mem_append.2 (.inl hx), ?_⟩
            rw [hx', exportLiteral_congr e2]
            have : (b.importLiteral e).1.exportLiteral (2 * v) = b.exportLiteral (2 * v) :=
              Grown.export ⟨n, im, ex, hn, hg⟩ hA.imports (by omega)
            rw [this]
          · cases ha
        · rename_i hz
          have hz : e = 0 := by simpa using hz
          subst hz
          injection ha with e1; subst e1
          obtain ⟨_, g2, g3⟩ := addZero_ok hA
          refine hI'.more h0 fun hr v hv hrem => ?_
          have hex : b.addZero.exportLiteral = b.exportLiteral := exportLiteral_congr rfl
          rw [hex, hsplit]
          rw [g2] at hv
          rcases g3 v hrem with h1 | ⟨l, h1, h2⟩
          · obtain ⟨x, hx, hx'⟩ := ih.mentioned (hcs hr) v hv h1
            exact ⟨x, List.mem_append.2 (.inl hx), hx'⟩
          · refine ⟨b.exportLiteral l, List.mem_append.2 (.inl ?_), natAbs_export h2⟩
            refine ((mem_clausesOf _).2 _ ?_).1
            rw [← hpe]
            exact List.mem_map.2 ⟨l, h1, rfl⟩
    | @reserve n _ hr =>
      have hsplit : addedInts (cs ++ [.reserve n]) = addedInts cs := by
        rw [addedInts_append]; exact List.append_nil _
      have hno : ¬ ∀ m, Call.reserve m ∉ cs ++ [.reserve n] := fun h => h n (by simp)
      obtain ⟨g1, g2, g3, _, g4, g5⟩ := reserve_ok hI.imports hr
      by_cases h0 : b.searches = 0
      · exact hI'.more (g2.trans h0) fun h => absurd h hno
      · obtain ⟨⟨orig, db, k1, k2⟩, k3, _⟩ := ih
        obtain ⟨m1, m2, m3, m4⟩ := reserve_more hI.imports hr
        refine ⟨⟨orig, db, ?_, ?_⟩, fun l hl => ?_, fun h => absurd h hno⟩
        · rw [hsplit, ← k1]
          exact List.map_congr_left fun c hc => map_export_congr (k2.2.1 c hc) g4
        · rw [m2]; exact apiBase_mono m1 k2
        · rw [m3] at hl
          exact ⟨Nat.lt_of_lt_of_le (k3 l hl).1 m1, m4 _ (k3 l hl).2⟩
    | terminate =>
      have hsplit : addedInts (cs ++ [.terminate]) = addedInts cs := by
        rw [addedInts_append]; exact List.append_nil _
      obtain ⟨k1, k2, k3⟩ := ih
      exact ⟨by rw [hsplit]; exact k1, k2, fun h => by rw [hsplit]; exact k3 (hcs h)⟩
    | @setTerminate f =>
      have hsplit : addedInts (cs ++ [.setTerminate f]) = addedInts cs := by
        rw [addedInts_append]; exact List.append_nil _
      obtain ⟨k1, k2, k3⟩ := ih
      exact ⟨by rw [hsplit]; exact k1, k2, fun h => by rw [hsplit]; exact k3 (hcs h)⟩
    | @setConflictLimit n =>
      have hsplit : addedInts (cs ++ [.setConflictLimit n]) = addedInts cs := by
        rw [addedInts_append]; exact List.append_nil _
      obtain ⟨k1, k2, k3⟩ := ih
      exact ⟨by rw [hsplit]; exact k1, k2, fun h => by rw [hsplit]; exact k3 (hcs h)⟩
    | @setDecisionLimit n =>
      have hsplit : addedInts (cs ++ [.setDecisionLimit n]) = addedInts cs := by
        rw [addedInts_append]; exact List.append_nil _
      obtain ⟨k1, k2, k3⟩ := ih
      exact ⟨by rw [hsplit]; exact k1, k2, fun h => by rw [hsplit]; exact k3 (hcs h)⟩
    | @solve os _ _ hs =>
      have hsplit : addedInts (cs ++ [.solve os]) = addedInts cs := by
        rw [addedInts_append]; exact List.append_nil _
      obtain ⟨orig, hA, hcl, hpe⟩ := hI.loaded (solve_searches hs)
      obtain ⟨g0, ⟨g1, g2, g3⟩, g4⟩ := solve_ok hA hfair hs
      rcases g4 with rfl | ⟨g4, g5, g6, _⟩
      · obtain ⟨k1, k2, k3⟩ := ih
        exact ⟨by rw [hsplit]; exact k1, k2, fun h => by rw [hsplit]; exact k3 (hcs h)⟩
      · refine ⟨?_, g6, fun h v hv hrem => ?_⟩
        · have : ∃ db, (apiBase orig).R b'.s.vars b'.s.proof db := by
            cases g0 with
            | sat h => obtain ⟨db, h1, _⟩ := h.ok.proof; exact ⟨db, h1⟩
            | unsat h => exact ⟨_, h⟩
            | unknown h => exact ⟨_, h⟩
          obtain ⟨db, hdb⟩ := this
          refine ⟨orig, db, ?_, hdb⟩
          rw [hsplit, exportLiteral_congr g2]; exact hcl
        · rw [hsplit, exportLiteral_congr g2]
          rw [g3] at hv; rw [g5] at hrem
          exact ih.mentioned (hcs h) v hv hrem

end Verif.Core
